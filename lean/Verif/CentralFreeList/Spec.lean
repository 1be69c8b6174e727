import Verif.CentralFreeList.Model
/-!
The world around one central free list, for stating its properties: which spans the page heap has lent it,
which objects its callers hold, and what its callers and the page heap may do.
-/
namespace Verif.CentralFreeList
open Verif.Span (Geo Mem IsObj InObj)

/-- The model state, the spans (first pages) lent by the page heap and not given back, and the objects
returned by finished `RemoveRange` calls and not inserted since. -/
structure World where
  c : Cfl
  sp : List Nat
  held : List Nat

/-- What can happen: anybody who holds objects (or memory elsewhere) writes to it; a `RemoveRange` for `n`
objects runs until it finishes or drops the lock; the `j`-th waiting one is answered by the page heap; an
`InsertRange`. -/
inductive Ev
  | write (w : Mem)
  | remove (n : Nat)
  | populate (j : Nat) (span : Option Nat)
  | insert (batch : List Nat)

/-- What a step lets the outside see: the batch of a `RemoveRange` that returned, and the spans given back
to the page heap. -/
structure Out where
  got : Option (List Nat)
  freed : List Nat
deriving DecidableEq

/-- Two spans of the class share no page. -/
def Apart (k : Geo) (p q : Nat) : Prop := p + k.numPages ≤ q ∨ q + k.numPages ≤ p

/-- What callers, users and the page heap must respect: nobody writes to objects they do not hold; batches
are of the supported sizes; a fresh span shares no page with a lent one (`Verif/PageHeap`); only held
objects are inserted, each once. -/
def Pre (k : Geo) (x : World) : Ev → Prop
  | .write w => ∀ p ∈ x.sp, ∀ o, IsObj (spanAt k p) o → o ∉ x.held →
      ∀ a, InObj (spanAt k p) o a → w a = x.c.w a
  | .remove n => 0 < n ∧ n ≤ kMaxObjectsToMove
  | .populate j span => j < x.c.pend.length ∧ ∀ p, span = some p → ∀ q ∈ x.sp, Apart k p q
  | .insert batch => batch ≠ [] ∧ batch.length ≤ kMaxObjectsToMove ∧ batch.Nodup ∧ ∀ o ∈ batch, o ∈ x.held

def step (k : Geo) (x : World) : Ev → Option (World × Out)
  | .write w => some ({ x with c := { x.c with w := w } }, ⟨none, []⟩)
  | .remove n =>
    (remove k x.c n).map fun (c, r) => (⟨c, x.sp, r.getD [] ++ x.held⟩, ⟨r, []⟩)
  | .populate j span =>
    (populate k x.c j span).map fun (c, r) => (⟨c, span.toList ++ x.sp, r ++ x.held⟩, ⟨some r, []⟩)
  | .insert batch =>
    (insert k x.c batch).map fun (c, freed) =>
      (⟨c, x.sp.filter fun p => decide (p ∉ freed), x.held.filter fun o => decide (o ∉ batch)⟩, ⟨none, freed⟩)

/-- All histories: any interleaving of any number of callers. -/
inductive Reach (k : Geo) : World → Prop
  | init (w : Mem) : Reach k ⟨init w, [], []⟩
  | step {x x' : World} {o : Out} (e : Ev) : Reach k x → Pre k x e → step k x e = some (x', o) → Reach k x'

/-- The objects in the batches of calls that are waiting for the page heap. -/
def inHand (c : Cfl) : List Nat := c.pend.flatMap Pend.got

/-- The objects of span `p` that are out: held by callers or in the batch of a waiting call. -/
def outOf (k : Geo) (x : World) (p : Nat) : List Nat :=
  (x.held ++ inHand x.c).filter fun o => decide ((spanAt k p).start ≤ o ∧
    o < (spanAt k p).start + k.numPages * k.pageSize)

end Verif.CentralFreeList
