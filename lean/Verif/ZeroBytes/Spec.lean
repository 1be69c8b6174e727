import Verif.ZeroBytes.Model
import Verif.Residency.Spec
import Verif.Bitmap.Lemmas
/-! What the theorems on zero bytes speak of. -/
namespace Verif.ZeroBytes
open Verif.Bitmap Verif.Residency

/-- The addresses of a block that lie on its first 512 pages and on pages marked resident, in order. -/
def residentBytes (P : Nat) (bits : List Word) (addr size : Nat) : List Nat :=
  (List.range' addr size).filter (fun a => decide (a / P - addr / P < 512) && bitAt bits (a / P - addr / P))

/-- What is assumed of `double` arithmetic: rounding keeps order, integers up to 2^53 are exact, and the relative error
is at most 2^-53. -/
structure Rounding (rnd : Rat → Rat) : Prop where
  mono : ∀ x y, x ≤ y → rnd x ≤ rnd y
  nat : ∀ n : Nat, n ≤ 2 ^ 53 → rnd n = n
  low : ∀ x, 0 ≤ x → x - x / 2 ^ 53 ≤ rnd x
  high : ∀ x, 0 ≤ x → rnd x ≤ x + x / 2 ^ 53

end Verif.ZeroBytes
