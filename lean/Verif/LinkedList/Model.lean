/-
Model of /repo/tcmalloc/internal/linked_list.h: the intrusive singly linked `LinkedList` and the intrusive doubly
linked `TList`, on explicit pointer memory.

A pointer is a natural number, `0` = nullptr.  `none` = null dereference or failed assertion (debug checks are
included: in optimised builds a call that fails one here has no defined result).
Simplification: the 32-bit length is a natural number.
-/
namespace Verif.LinkedList

abbrev Ptr := Nat

def upd {α : Type} (f : Ptr → α) (p : Ptr) (v : α) : Ptr → α := fun q => if q = p then v else f q

/-! ### `LinkedList` -/

/-- The object memory (first word of every object) and the list object, linked_list.h:62-64. -/
structure S where
  nxt : Ptr → Ptr
  list : Ptr
  length : Nat

/-- `SLL_Next`, linked_list.h:33-35. -/
def sllNext (nxt : Ptr → Ptr) (t : Ptr) : Option Ptr := if t = 0 then none else some (nxt t)

/-- `SLL_SetNext`, linked_list.h:37-39. -/
def sllSetNext (nxt : Ptr → Ptr) (t n : Ptr) : Option (Ptr → Ptr) := if t = 0 then none else some (upd nxt t n)

/-- `Push` (with `SLL_Push`, linked_list.h:41-44), linked_list.h:81-84. -/
def push (s : S) (p : Ptr) : Option S :=
  match sllSetNext s.nxt p s.list with
  | none => none
  | some nxt => some { nxt, list := p, length := s.length + 1 }

/-- `length_--` / `length_ -= N`: below zero is an underflow. -/
def subLen (a b : Nat) : Option Nat := if b ≤ a then some (a - b) else none

/-- `TryPop`, linked_list.h:86-104. -/
def tryPop (s : S) : Option (S × Option Ptr) :=
  if s.list = 0 then some (s, none)
  else
    match sllNext s.nxt s.list, subLen s.length 1 with
    | some nx, some l => some ({ s with list := nx, length := l }, some s.list)
    | _, _ => none

/-- The stores of `PushBatch`, linked_list.h:109-112. -/
def chain (nxt : Ptr → Ptr) (tail : Ptr) : List Ptr → Option (Ptr → Ptr)
  | [] => some nxt
  | [x] => sllSetNext nxt x tail
  | x :: y :: r =>
    match sllSetNext nxt x y with
    | none => none
    | some nxt => chain nxt tail (y :: r)

/-- `PushBatch`, linked_list.h:107-115. -/
def pushBatch (s : S) (batch : List Ptr) : Option S :=
  match batch with
  | [] => none
  | x :: r =>
    match chain s.nxt s.list (x :: r) with
    | none => none
    | some nxt => some { nxt, list := x, length := s.length + (x :: r).length }

/-- The loop of `PopBatch`, linked_list.h:118-122: the objects and the new head. -/
def popLoop (nxt : Ptr → Ptr) (p : Ptr) : Nat → Option (List Ptr × Ptr)
  | 0 => some ([], p)
  | n + 1 =>
    match sllNext nxt p with
    | none => none
    | some q =>
      match popLoop nxt q n with
      | none => none
      | some (b, e) => some (p :: b, e)

/-- `PopBatch`, linked_list.h:117-126. -/
def popBatch (s : S) (n : Nat) : Option (S × List Ptr) :=
  match popLoop s.nxt s.list n, subLen s.length n with
  | some (b, p), some l => some ({ s with list := p, length := l }, b)
  | _, _ => none

/-! ### `TList` -/

/-- The fields of every `Elem` (list heads included), linked_list.h:139-154. -/
structure M where
  next : Ptr → Ptr
  prev : Ptr → Ptr
  /-- `list_` of debug builds: the list (its head's address), or `0`. -/
  owner : Ptr → Ptr

/-- `TList()`, linked_list.h:205. -/
def initHead (m : M) (h : Ptr) : M := { m with next := upd m.next h h, prev := upd m.prev h h }

/-- `Elem::prepend`, linked_list.h:177-188: insert `item` before `at_`. -/
def elemPrepend (m : M) (at_ item h : Ptr) : Option M :=
  let prev := m.prev at_
  let m1 := { m with prev := upd m.prev item prev, next := upd m.next item at_ }
  let m2 := { m1 with next := upd m1.next prev item }
  let m3 := { m2 with prev := upd m2.prev at_ item }
  if m3.owner item = 0 then some { m3 with owner := upd m3.owner item h } else none

/-- `Elem::append`, linked_list.h:190-201: insert `item` after `at_`. -/
def elemAppend (m : M) (at_ item h : Ptr) : Option M :=
  let next := m.next at_
  let m1 := { m with next := upd m.next item next, prev := upd m.prev item at_ }
  let m2 := { m1 with prev := upd m1.prev next item }
  let m3 := { m2 with next := upd m2.next at_ item }
  if m3.owner item = 0 then some { m3 with owner := upd m3.owner item h } else none

/-- `Elem::remove`, linked_list.h:160-175. -/
def elemRemove (m : M) (x : Ptr) : Option (M × Bool) :=
  let next := m.next x
  let prev := m.prev x
  if m.next prev = x then
    let m1 := { m with next := upd m.next prev next }
    if m1.prev next = x then
      let m2 := { m1 with prev := upd m1.prev next prev }
      some ({ next := upd m2.next x 0, prev := upd m2.prev x 0, owner := upd m2.owner x 0 }, next == prev)
    else none
  else none

/-- `TList::prepend(item)`, linked_list.h:239. -/
def prepend (m : M) (h item : Ptr) : Option M := elemAppend m h item h
/-- `TList::append(item)`, linked_list.h:243. -/
def append (m : M) (h item : Ptr) : Option M := elemPrepend m h item h
/-- `TList::prepend(item, other)`, linked_list.h:241. -/
def prependAt (m : M) (h item other : Ptr) : Option M := elemPrepend m item other h
/-- `TList::append(item, other)`, linked_list.h:245. -/
def appendAt (m : M) (h item other : Ptr) : Option M := elemAppend m item other h

/-- `TList::remove`, linked_list.h:247-253. -/
def remove (m : M) (h item : Ptr) : Option (M × Bool) :=
  if m.owner item = h then elemRemove { m with owner := upd m.owner item 0 } item else none

/-- `TList::empty`, linked_list.h:213. -/
def isEmpty (m : M) (h : Ptr) : Bool := m.next h == h
/-- `TList::first`, linked_list.h:225-229. -/
def first (m : M) (h : Ptr) : Option Ptr := if isEmpty m h || m.next h == 0 then none else some (m.next h)
/-- `TList::last`, linked_list.h:232-236. -/
def last (m : M) (h : Ptr) : Option Ptr := if isEmpty m h || m.prev h == 0 then none else some (m.prev h)

/-- Iteration `begin()`..`end()`, linked_list.h:256-257, 268-288 (and `length`, 216-222): the elements visited from `e`
on.  `none` when more than `fuel` steps are needed. -/
def iter (m : M) (h : Ptr) : Nat → Ptr → Option (List Ptr)
  | 0, e => if e = h then some [] else none
  | fuel + 1, e => if e = h then some [] else (iter m h fuel (m.next e)).map (e :: ·)

/-- Reverse iteration, linked_list.h:259-260, 290-309. -/
def riter (m : M) (h : Ptr) : Nat → Ptr → Option (List Ptr)
  | 0, e => if e = h then some [] else none
  | fuel + 1, e => if e = h then some [] else (riter m h fuel (m.prev e)).map (e :: ·)

end Verif.LinkedList
