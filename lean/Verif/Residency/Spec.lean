import Verif.Residency.Model
/-
Specification for the memory-state queries.  Written byte by byte: a range of memory is the bytes
`addr, addr + 1, …, addr + size - 1`, byte `b` lies on page `b / P`, and what is reported is the number
of those bytes whose page has a property.  Nothing here uses the functions of the model.
-/
namespace Verif.Residency.Spec
open Verif.Bitmap (Word)

/-- How many bytes of `[addr, addr + size)` lie on a page satisfying `q`. -/
def bytesOn (P : Nat) (q : Nat → Bool) (addr size : Nat) : Nat :=
  (List.range size).countP (fun k => q ((addr + k) / P))

/-- In `/proc/self/pagemap`, bit 63: the page is in memory. -/
def Present (pagemap : Nat → Word) (p : Nat) : Bool := (pagemap p).getLsbD 63

/-- In `/proc/self/pagemap`, bit 62: the page is in swap. -/
def Swapped (pagemap : Nat → Word) (p : Nat) : Bool := (pagemap p).getLsbD 62

/-- In the answer of `mincore`, bit 0: the page is in memory. -/
def InCore (vec : Nat → Word) (p : Nat) : Bool := (vec p).getLsbD 0

/-- In `/proc/self/pageflags`, bit 15: first page of a compound page. -/
def Head (flags : Nat → Word) (p : Nat) : Bool := (flags p).getLsbD 15

/-- Bit 16: a later page of a compound page. -/
def Tail (flags : Nat → Word) (p : Nat) : Bool := (flags p).getLsbD 16

/-- The page whose flags speak for page `p`: the first page of the hugepage if `p` is a tail page.
`K` is the number of pages in a hugepage. -/
def owner (K : Nat) (flags : Nat → Word) (p : Nat) : Nat :=
  if Tail flags p then p / K * K else p

/-- Bit 44 of the owner: the page is stale. -/
def Stale (K : Nat) (flags : Nat → Word) (p : Nat) : Bool :=
  (flags (owner K flags p)).getLsbD 44

/-- Bit 33 (mlocked) or 18 (unevictable) of the owner: the page is locked. -/
def Locked (K : Nat) (flags : Nat → Word) (p : Nat) : Bool :=
  (flags (owner K flags p)).getLsbD 33 || (flags (owner K flags p)).getLsbD 18

/-- What the kernel guarantees when every compound page is an aligned hugepage of `K` pages
(pageflags.h:145-147 assumes this). -/
structure Compound (K : Nat) (flags : Nat → Word) : Prop where
  /-- no page is both -/
  excl : ∀ p, Head flags p = true → Tail flags p = false
  /-- a head page is aligned and followed by its tail pages -/
  head : ∀ p, Head flags p = true → p % K = 0 ∧ ∀ j, 0 < j → j < K → Tail flags (p + j) = true
  /-- a tail page belongs to a head page -/
  tail : ∀ p, Tail flags p = true → Head flags (p / K * K) = true

/-- Every compound page is a transparent hugepage (bit 22). -/
def AllThp (flags : Nat → Word) : Prop :=
  ∀ p, Head flags p = true ∨ Tail flags p = true → (flags p).getLsbD 22 = true

end Verif.Residency.Spec
