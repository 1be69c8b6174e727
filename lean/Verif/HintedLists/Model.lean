import Verif.Bitmap.Model
/-
Model of /repo/tcmalloc/hinted_tracker_lists.h: an array of `N` tracker lists with a bitmap of the non-empty ones.

The intrusive lists are sequences of element names: `Verif/LinkedList` proves that `TList` implements exactly the
operations on sequences used here (prepend, first, remove with its "now empty" result, iteration).
`none` = a failed assertion.
-/
namespace Verif.HintedLists
open Verif.Bitmap

/-- hinted_tracker_lists.h:148-156. -/
structure HL where
  lists : Nat → List Nat
  size : Nat
  nonempty : List Word

/-- hinted_tracker_lists.h:37. -/
def HL.new (N : Nat) : HL := ⟨fun _ => [], 0, Bitmap.empty N⟩

def setList (f : Nat → List Nat) (i : Nat) (L : List Nat) : Nat → List Nat := fun j => if j = i then L else f j

/-- `lists_[i].remove(pt)` and the bitmap update that follows it, as in `GetLeast` (hinted_tracker_lists.h:49-51),
`Remove` (93-96) and `Move` (111-114).  Removing an element that is not on list `i` is a failed check. -/
def unlink (N : Nat) (s : HL) (pt i : Nat) : Option HL :=
  if pt ∈ s.lists i then
    let L := (s.lists i).erase pt
    let s1 := { s with lists := setList s.lists i L }
    if L.isEmpty then
      match clearBit N s.nonempty i with
      | some (b, true) => some { s1 with nonempty := b }
      | _ => none
    else some s1
  else none

def decSize (s : HL) : Option HL := if 0 < s.size then some { s with size := s.size - 1 } else none

/-- `PeekLeast`, hinted_tracker_lists.h:66-74: the tracker and its list's index, if any. -/
def peekLeast (N : Nat) (s : HL) (n : Nat) : Option (Option (Nat × Nat)) :=
  if n < N then
    match findSet N s.nonempty n with
    | none => none
    | some i =>
      if i = N then some none
      else
        match s.lists i with
        | [] => none
        | pt :: _ => some (some (pt, i))
  else none

/-- `GetLeast`, hinted_tracker_lists.h:41-54. -/
def getLeast (N : Nat) (s : HL) (n : Nat) : Option (HL × Option Nat) :=
  match peekLeast N s n with
  | none => none
  | some none => some (s, none)
  | some (some (pt, i)) =>
    match (unlink N s pt i).bind decSize with
    | none => none
    | some s => some (s, some pt)

/-- `lists_[i].prepend(pt)` and `nonempty_.SetBit(i)`, hinted_tracker_lists.h:82-84 and 115-116. -/
def link (N : Nat) (s : HL) (pt i : Nat) : Option HL :=
  match setBit N s.nonempty i with
  | none => none
  | some (b, _) => some { s with lists := setList s.lists i (pt :: s.lists i), nonempty := b }

/-- `Add`, hinted_tracker_lists.h:78-85. -/
def add (N : Nat) (s : HL) (pt i : Nat) : Option HL :=
  if i < N then (link N s pt i).map (fun s => { s with size := s.size + 1 }) else none

/-- `Remove`, hinted_tracker_lists.h:89-98. -/
def remove (N : Nat) (s : HL) (pt i : Nat) : Option HL :=
  if i < N then (unlink N s pt i).bind decSize else none

/-- `Move`, hinted_tracker_lists.h:101-117. -/
def move (N : Nat) (s : HL) (pt from_ to : Nat) : Option HL :=
  if from_ < N ∧ to < N ∧ from_ ≠ to then (unlink N s pt from_).bind (fun s => link N s pt to) else none

/-- `Iter`, hinted_tracker_lists.h:134-145: the elements visited, in order. -/
def iter (N : Nat) (s : HL) (start : Nat) : Option (List Nat) :=
  match findSet N s.nonempty start with
  | none => none
  | some i =>
    if h : start ≤ i ∧ i < N then
      if (s.lists i).isEmpty then none
      else if i + 1 < N then (iter N s (i + 1)).map (s.lists i ++ ·) else some (s.lists i)
    else some []
termination_by N - start
decreasing_by omega

/-- `SizeOfList`, hinted_tracker_lists.h:126-129. -/
def sizeOfList (N : Nat) (s : HL) (n : Nat) : Option Nat := if n < N then some (s.lists n).length else none

end Verif.HintedLists
