import Verif.ThreadHeap.Footprint
import Verif.Guarded.Props
/-!
The same as `Verif/Process/Spec.lean` for per-thread mode: the composed heap (`Verif/ThreadHeap`), the guarded page allocator (`Verif/Guarded`) and everybody else.

The guarded page allocator maps its region with `MmapAligned` (guarded_page_allocator.cc:416-446), as the page heaps map
theirs; the heap's memory is handed out by the system allocator (`Ev.handed`: the answers an event carries, see
`Verif/PageHeap`).  What the kernel guarantees is that memory it maps is not mapped already: neither for a page heap nor for
the guarded page allocator (system_allocator.h: `mmap` without `MAP_FIXED`, or with `MAP_FIXED_NOREPLACE`).

Simplified: the heap's memory is a function of 16-bit words, the guarded one of bytes; a step of either allocator changes
its own function only, and what is proved is where.
-/
namespace Verif.ThreadProcess
open Verif.Span (Mem)
open Verif.PageHeap (HP)
open Verif.HugeAddressMap (Rng Cov)
open Verif.ThreadHeap (Heap Cfg Block)

/-- Bytes of a hugepage. -/
def hugeBytes (cfg : Cfg) : Nat := cfg.N * 2 ^ cfg.ps

/-- The byte at `y` is in one of the ranges (of hugepages). -/
def Given (cfg : Cfg) (G : List Rng) (y : Nat) : Prop :=
  ∃ r ∈ G, r.s * hugeBytes cfg ≤ y ∧ y < (r.s + r.n) * hugeBytes cfg

/-- The byte at `y` is in the block. -/
def In (b : Block) (y : Nat) : Prop := b.addr ≤ y ∧ y < b.addr + b.size

/-- All histories of the heap, with the memory at the beginning and everything the system handed out, in any order of
events (compare `ThreadHeap.Reach`, which is the same without the two). -/
inductive History (cfg : Cfg) : Mem → List Rng → Heap → Prop
  | init (t : Nat → List TransferCache.TC) (more : Nat → Bool) (reg : Nat → Nat → HugeRegion.R) (w : Mem) :
      (∀ k, ∀ x ∈ t k, ∃ cap max slots, x = TransferCache.TC.new cap max slots ∧ cap ≤ max) →
      History cfg w []
        { tc := ThreadCache.W.init cfg.tc, tier := fun k => ⟨⟨CentralFreeList.init w, [], []⟩, t k, [], [], []⟩, wait := fun _ => [],
          page := fun i => HP.init cfg.N (more i) (reg i), ob := fun _ => [], runs := fun _ => [], led := [], mem := w }
  | step {w : Mem} {G : List Rng} {h h' : Heap} {o : ThreadHeap.Out} (e : ThreadHeap.Ev) : History cfg w G h → ThreadHeap.Pre cfg h e →
      ThreadHeap.step cfg h e = some (h', o) → History cfg w (e.handed ++ G) h'

/-- The heap and the guarded page allocator, with the guarded objects in use. -/
structure Proc where
  heap : Heap
  g : Guarded.S
  objs : List Guarded.Obj

/-- The bytes the guarded page allocator mapped. -/
def Region (c : Guarded.Cfg) (y : Nat) : Prop := c.base ≤ y ∧ y < c.base + (2 * c.total + 1) * c.ps

def guardBlock (o : Guarded.Obj) : Block := ⟨o.ptr, o.size⟩

/-- All blocks users have. -/
def Proc.live (cfg : Cfg) (p : Proc) : List Block := p.heap.live cfg ++ p.objs.map guardBlock

/-- All histories of both.  The guarded page allocator is initialised at any time after the start of the heap, and its
region is memory that was not mapped (lines 55-72, 410-446). -/
inductive Reach (cfg : Cfg) (c : Guarded.Cfg) : List Rng → Proc → Prop
  | start {w : Mem} {G : List Rng} {h : Heap} (m : Nat → Nat) : History cfg w G h →
      (∀ y, Region c y → ¬ Given cfg G y) → Reach cfg c G ⟨h, Guarded.S.init m, []⟩
  | heap {G : List Rng} {p : Proc} {h' : Heap} {o : ThreadHeap.Out} (e : ThreadHeap.Ev) : Reach cfg c G p → ThreadHeap.Pre cfg p.heap e →
      (∀ y, Region c y → ¬ Given cfg e.handed y) → ThreadHeap.step cfg p.heap e = some (h', o) →
      Reach cfg c (e.handed ++ G) { p with heap := h' }
  | guard {G : List Rng} {p : Proc} {s' : Guarded.S} {o : Guarded.Out} (e : Guarded.Ev) : Reach cfg c G p →
      Guarded.Pre c p.g p.objs e → Guarded.step c p.g e = some (s', o) →
      Reach cfg c G { p with g := s', objs := Guarded.live' p.objs p.g e o }

end Verif.ThreadProcess
