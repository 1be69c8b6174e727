import Verif.PageTracker.Model
import Verif.Bitmap.Lemmas2
/-! Histories of one hugepage's tracker. -/
namespace Verif.PageTracker
open Verif.Bitmap Verif.RangeTracker

/-- A live run of pages: first page within the hugepage, number of pages, objects. -/
structure Alloc where
  i : Nat
  n : Nat
  objs : Nat
  deriving Repr, DecidableEq

def Alloc.Has (a : Alloc) (j : Nat) : Prop := a.i ≤ j ∧ j < a.i + a.n
def Call.Has (c : Call) (j : Nat) : Prop := c.i ≤ j ∧ j < c.i + c.n

/-- The pages of the calls that succeeded. -/
def okSum : List Call → Nat
  | [] => 0
  | c :: cs => (if c.ok then c.n else 0) + okSum cs

/-- Page `j` of the hugepage is in use. -/
def PT.Used (t : PT) (j : Nat) : Prop := bitAt t.free.bits j = true
/-- Page `j` of the hugepage is recorded as returned to the kernel. -/
def PT.Rel (t : PT) (j : Nat) : Prop := bitAt t.rel j = true

/-- Reachable trackers with their live runs: runs are returned as they were handed out; any kernel answers; any
residency bitmap. -/
inductive Reach (N : Nat) : PT → List Alloc → Prop where
  | new (loc : Nat) (d : Bool) : Reach N (PT.new N loc d) []
  | get {t live t'} (n objs index unbacked : Nat) : Reach N t live →
      get N t n objs = some (t', t.firstPage N + index, unbacked) → Reach N t' (⟨index, n, objs⟩ :: live)
  | put {t t'} (A : List Alloc) (a : Alloc) (B : List Alloc) : Reach N t (A ++ a :: B) →
      put N t (t.firstPage N + a.i) a.n a.objs = some t' → Reach N t' (A ++ B)
  | release {t live t'} (ok : Nat → Bool) (count : Nat) (calls : List Call) : Reach N t live →
      releaseFree N t ok = some (t', count, calls) → Reach N t' live
  | subreleased {t live t'} (unbacked : List Word) (c : Nat) : Reach N t live → WF N unbacked →
      markSubreleased N t unbacked = some (t', c) → Reach N t' live

end Verif.PageTracker
