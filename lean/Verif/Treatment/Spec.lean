import Verif.Treatment.Model
import Verif.Filler.Spec
/-! What the theorems on treatments of hugepages speak of. -/
namespace Verif.Treatment
open Verif.PageTracker Verif.Filler

/-- The C++ standard's requirement on comparison functions. -/
structure Strict (lt : Nat → Nat → Bool) : Prop where
  irrefl : ∀ a, lt a a = false
  trans : ∀ a b c, lt a b = true → lt b c = true → lt a c = true
  incomp : ∀ a b c, lt a b = false → lt b c = false → lt a c = false

/-- What the C++ standard says of the heap functions: `make_heap` and `push_heap` reorder the array into a heap, the
first element of a heap is a greatest one, `pop_heap` moves it to the end and leaves a heap before it. -/
structure StdHeap.Lawful (H : StdHeap) (IsHeap : (Nat → Nat → Bool) → List Nat → Prop) : Prop where
  front : ∀ {lt a l}, Strict lt → IsHeap lt (a :: l) → ∀ x ∈ a :: l, lt a x = false
  make : ∀ {lt} (l), Strict lt → (H.make lt l).Perm l ∧ IsHeap lt (H.make lt l)
  pop : ∀ {lt a l}, Strict lt → IsHeap lt (a :: l) → ∃ r, H.pop lt (a :: l) = r ++ [a] ∧ r.Perm l ∧ IsHeap lt r
  push : ∀ {lt r} (x), Strict lt → IsHeap lt r → (H.push lt (r ++ [x])).Perm (r ++ [x]) ∧ IsHeap lt (H.push lt (r ++ [x]))

/-- Hugepage `a` is a better candidate for collapsing than `b`: it has more objects or, with equally many, it alone
is dense. -/
def Better (f : F) (a b : Nat) : Prop :=
  (f.tr b).objects < (f.tr a).objects ∨
  ((f.tr a).objects = (f.tr b).objects ∧ (f.tr a).dense = true ∧ (f.tr b).dense = false)

/-- A hugepage the treatment should look at for collapsing: not known to be backed by a huge page, and not looked at
in the last five minutes.  Hugepages all of whose free pages are released count only if releases of unbacked pages
are recorded. -/
def WantsLook (N : Nat) (mode : Bool) (limit now : Nat) (f : F) (info : Nat → Info) (g : Gh) (id : Nat) : Prop :=
  id ∈ g.held ∧ (f.tr id).hugeBacked = false ∧ ((info id).valid = false ∨ (info id).recTime + limit < now) ∧
  (mode = false → fullyReleased N mode (f.tr id) = false)

/-- A hugepage the treatment should name: sampled, not donated, and not named in the last five minutes. -/
def WantsName (limit now : Nat) (f : F) (info : Nat → Info) (g : Gh) (id : Nat) : Prop :=
  id ∈ g.held ∧ (f.tr id).donated = false ∧ (info id).sampled = true ∧ (info id).tagTime + limit < now

end Verif.Treatment
