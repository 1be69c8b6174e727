import Verif.HugeAllocator.Model
/-! Histories of the hugepage-range allocator and the ownership they imply. -/
namespace Verif.HugeAllocator
open Verif.HugeAddressMap

/-- What the system allocator promises: at least what was asked for, not address 0, and no hugepage it handed
out before. -/
def SysOK (ob : List Rng) (n : Nat) (sys : Option Rng) : Prop :=
  ∀ r, sys = some r → n ≤ r.n ∧ r.s ≠ 0 ∧ ∀ p, r.Has p → ¬ Cov ob p

/-- Reachable states, with the ranges obtained from the system so far and the set of hugepages currently owned
by callers. -/
inductive Reach : HA → List Rng → PSet → Prop where
  | init : Reach HA.init [] (fun _ => False)
  | get {a ob ow a'} (n : Nat) (sys : Option Rng) (res : Option Rng) (asked : Bool) :
      Reach a ob ow → 0 < n → SysOK ob n sys → get a n sys = some (a', res, asked) →
      Reach a' (if asked then sys.toList ++ ob else ob) (fun p => ow p ∨ ∃ r, res = some r ∧ r.Has p)
  | release {a ob ow a'} (r : Rng) :
      Reach a ob ow → 0 < r.n → (∀ p, r.Has p → ow p) → release a r = some a' →
      Reach a' ob (fun p => ow p ∧ ¬ r.Has p)

end Verif.HugeAllocator
