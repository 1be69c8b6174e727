import Verif.HugeAddressMap.Spec
/-
Model of the allocator of unbacked hugepage ranges: /repo/tcmalloc/huge_allocator.{h,cc}.

`none` = a failed check (the program stops).  The system allocator's answer is an argument: null, or a range of
whole hugepages (the code checks that the byte count is a multiple of the hugepage size, huge_allocator.cc:114).
-/
namespace Verif.HugeAllocator
open Verif.HugeAddressMap

/-- huge_allocator.h:116-129. -/
structure HA where
  free : HMap
  fromSystem : Nat
  inUse : Nat
  deriving Repr

def HA.init : HA := ⟨HMap.init, 0, 0⟩

/-- The child `Find` looks at next when both may fit, huge_allocator.cc:72-85 (`true` = left). -/
def goLeft (l r : Tree) : Bool :=
  match l, r with
  | .node _ x _, .node _ y _ =>
    if x.r.n = y.r.n then decide (x.longest ≤ y.longest) else decide (x.r.n < y.r.n)
  | _, _ => false

def isLeaf : Tree → Bool
  | .leaf => true
  | .node .. => false

/-- The update of the candidate at a node of range `x`, huge_allocator.cc:51-55. -/
def better (n : Nat) (x : Rng) (best : Option Rng) : Option Rng :=
  if x.n ≥ n then
    match best with
    | none => some x
    | some b => if b.n > x.n then some x else best
  else best

/-- `Find`, huge_allocator.cc:43-88. -/
def find (n : Nat) : Tree → Option Rng → Option Rng
  | .leaf, best => best
  | .node l x r, best =>
    if x.longest ≥ n then
      if isLeaf l || decide (l.longest < n) then find n r (better n x.r best)
      else if isLeaf r || decide (r.longest < n) then find n l (better n x.r best)
      else if goLeft l r then find n l (better n x.r best)
      else find n r (better n x.r best)
    else best

/-- `Release`, huge_allocator.cc:151-156. -/
def release (a : HA) (r : Rng) : Option HA :=
  match HugeAddressMap.insert a.free r with
  | none => none
  | some f => some { a with free := f, inUse := a.inUse - r.n }

/-- The second half of `Get`, huge_allocator.cc:131-148, on the node of range `q`. -/
def take (a : HA) (q : Rng) (n : Nat) : Option (HA × Rng) :=
  match HugeAddressMap.remove a.free q.s with
  | none => none
  | some f =>
    let a1 := { a with free := f, inUse := a.inUse + n }
    if q.n > n then
      match release { a1 with inUse := a1.inUse + (q.n - n) } ⟨q.s + n, q.n - n⟩ with
      | none => none
      | some a2 => some (a2, ⟨q.s, n⟩)
    else some (a1, q)

/-- Largest representable number of hugepages (`HugeLength::overflows`, huge_pages.h:294-296). -/
def maxLen : Nat := (2 ^ 64 - 1) / 2 ^ 21

/-- `Get`, huge_allocator.cc:119-149, with `AllocateRange` (102-117) inlined.  The second component `none` is
the invalid range; the flag says whether the system allocator was called. -/
def get (a : HA) (n : Nat) (sys : Option Rng) : Option (HA × Option Rng × Bool) :=
  if n = 0 then none
  else
    match find n a.free.root none with
    | some q => (take a q n).map fun x => (x.1, some x.2, false)
    | none =>
      if n > maxLen then some (a, none, false)
      else
        match sys with
        | none => some (a, none, true)
        | some r =>
          match release { a with fromSystem := a.fromSystem + r.n, inUse := a.inUse + r.n } r with
          | none => none
          | some a1 =>
            match find n a1.free.root none with
            | none => none
            | some q => (take a1 q n).map fun x => (x.1, some x.2, true)

/-- `Contains`, huge_allocator.h:92-95. -/
def contains (a : HA) (p : Nat) : Bool :=
  match pred p a.free.root none with
  | none => false
  | some r => r.contains p

end Verif.HugeAllocator
