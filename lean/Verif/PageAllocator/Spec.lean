import Verif.PageAllocator.Model
/-! The vocabulary of the properties of limits and releases. -/
namespace Verif.PageAllocator
open Verif.PageHeap

/-- Pages reported by a list of calls. -/
def total (log : List Ask) : Nat := (log.map Ask.got).sum

/-- Each heap is asked for exactly what is still missing when its turn comes, out of `pages`, `got` having been reported
before. -/
def AsksMissing (pages : Nat) : Nat → List Ask → Prop
  | _, [] => True
  | got, a :: l => a.n = pages - got ∧ AsksMissing pages (got + a.got) l

/-- One attempt to release `pages` pages: first every heap, in order, without breaking hugepages; then, unless that
was enough (or it must not: `forbidden`), the heaps in the same order with breaking, stopping at the first that completes
the amount; each is asked for what is missing.  `ok`: was it enough? -/
structure Attempt (c : Cfg) (pages : Nat) (forbidden : Prop) (log : List Ask) (ok : Bool) : Prop where
  parts : ∃ A B, log = A ++ B ∧ A.map Ask.heap = order c ∧ (∀ a ∈ A, a.breaking = false) ∧
    (B.map Ask.heap <+: order c) ∧ (∀ b ∈ B, b.breaking = true) ∧
    (pages ≤ total A → B = []) ∧ (forbidden → B = []) ∧
    (∀ B1 b B2, B = B1 ++ b :: B2 → total A + total B1 < pages) ∧
    (ok = false → ¬ forbidden → B.map Ask.heap = order c)
  missing : AsksMissing pages 0 log
  result : ok = true ↔ pages ≤ total log

/-- The least number of pages that is at least `bytes`. -/
def CeilPages (c : Cfg) (bytes pages : Nat) : Prop := bytes ≤ pages * c.pageSize ∧ pages * c.pageSize < bytes + c.pageSize

/-- Every heap of the world is in a reachable state, `mem` being the memory obtained and `live` the runs in use. -/
def Good (H N : Nat) (mode : Bool) (c : Cfg) (mem : Heap → List HugeAddressMap.Rng) (live : Heap → List Run) (w : World) : Prop :=
  ∀ h ∈ order c, PageHeap.Reach H N mode (w.heaps h) (mem h) (live h)

/-- Pages the fillers have returned to the kernel and not yet reported to a caller of a release. -/
def credit (c : Cfg) (w : World) : Nat := ((order c).map fun h => (w.heaps h).fill.unacc).sum

/-- The kernel refuses nothing; no tracker is passed over because it is being collapsed. -/
def Willing (w : World) : Prop :=
  ∀ i, (∀ j, (w.script i).ans j = true) ∧ (∀ a b, (w.script i).x.okF a b = true) ∧ (∀ a b, (w.script i).x.okR a b = true) ∧
    ∀ id, (w.script i).x.skip id = false

/-- Nothing that could be returned to the kernel is left in any heap: no cached hugepage, no backed hugepage of a region
without allocations, no free backed page on a hugepage of a filler. -/
def Exhausted (N : Nat) (c : Cfg) (w : World) : Prop := ∀ h ∈ order c, (w.heaps h).Exhausted N fun _ => false

/-- Bytes in use as the limits count them: backed pages of all heaps and the metadata. -/
def usage (H N : Nat) (c : Cfg) (w : World) : Nat := pages H N c w * c.pageSize + w.metadata

/-- Hugepages may be broken up by releases (`hpaa_subrelease`), and none is spared because of recent demand. -/
def Subreleasing (w : World) : Prop := ∀ i, (w.script i).x.subrelease = true ∧ (w.script i).x.adjusted = none

/-- No heap has a cached hugepage or a free backed page on a hugepage of its filler. -/
def Drained (N : Nat) (c : Cfg) (w : World) : Prop :=
  ∀ h ∈ order c, (w.heaps h).cache.size = 0 ∧ FillerDone N (w.heaps h).fill fun _ => false

end Verif.PageAllocator
