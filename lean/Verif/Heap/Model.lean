import Verif.Heap.Cpu
import Verif.Heap.Tier
import Verif.Heap.Pages
/-!
The whole heap in per-CPU mode: the per-CPU caches (`Verif/CpuCache` on `Verif/Slab`), for every size class the transfer
caches and the central free list (`Verif/TransferCache` on `Verif/CentralFreeList` on `Verif/Span`), for every memory tag
a page heap (`Verif/PageHeap` and what is below it), and one memory.  The parts are the models of those directories
themselves; this file wires them as the code does:

* a batch the per-CPU caches release goes to `InsertRange` of the transfer cache of its class (cpu_cache.h:1163-1173,
  1242, 2071, 2127, 2147, 2254), the sharded cache of the CPU or the main one;
* a refill calls `RemoveRange` there (cpu_cache.h:1154-1161, 1183, 1190, 1229);
* a `RemoveRange` that ends in `Populate` gets its span from the page heap of the tag of the class
  (central_freelist.cc:54-62, 114-135), without holding the lock, and the objects go to the thread that asked;
* spans the central free list has emptied go back to that page heap (central_freelist.h:669-674, central_freelist.cc:149-200);
* larger requests take runs of pages (tcmalloc.cc:632-660) and give them back (tcmalloc.cc:668-750).

Every lock region of every part is a step of its own, so the parts interleave freely.  Kernel and page heap may change
memory that is being returned to the kernel, or is new; users write to their blocks.

Simplified: the class of an address is found in the page map (C11), which the central free lists keep here each for its
own spans; sampled and guarded allocations are runs of pages whose owner is a user.  The handing over of a batch between
two parts (a local array of the calling thread) is part of the step that takes it.
-/
namespace Verif.Heap
open Verif.Span (Geo Mem)
open Verif.PageHeap (HP Run)
open Verif.HugeAddressMap (Rng)

/-- Per-CPU caches, geometry of the spans of each class (common.h, sizemap), the tag whose page heap serves the class
(central_freelist.cc:54-62), the constants of the page heap (see `Verif/PageHeap`), the page shift. -/
structure Cfg where
  cpu : CpuCache.Cfg
  geo : Nat → Geo
  tag : Nat → Nat
  H : Nat
  N : Nat
  mode : Bool
  ps : Nat

/-- Who has a run of pages that is out of the page heap: a `Populate` of class `k` between `AllocateSpan` and
`lock_.lock()` (central_freelist.h:796-811), the central free list of `k`, an `InsertRange` of `k` between
unlocking and the end of `DeallocateSpans` (central_freelist.h:666-674), a user of tag `t`. -/
inductive Owner
  | fresh (k : Nat)
  | lent (k : Nat)
  | dying (k : Nat)
  | big (t : Nat)
deriving DecidableEq

/-- The tag of the page heap the run is from. -/
def Owner.tag (cfg : Cfg) : Owner → Nat
  | .fresh k | .lent k | .dying k => cfg.tag k
  | .big t => t

/-- `wait k`: the threads of the waiting calls of the central free list of class `k` (in its order).  `ob t`: the ranges
the page heap of tag `t` has obtained.  `led`: the runs that are out, with their owners. -/
structure Heap where
  cpu : CpuCache.W
  tier : Nat → TransferCache.World
  wait : Nat → List Nat
  page : Nat → HP
  ob : Nat → List Rng
  runs : Nat → List Run
  led : List (Owner × Run)
  mem : Mem

def upd {α : Type} (f : Nat → α) (i : Nat) (v : α) : Nat → α := fun j => if j = i then v else f j

/-- Everybody sees the same memory. -/
def setW (w : Mem) (y : TransferCache.World) : TransferCache.World := { y with x := { y.x with c := { y.x.c with w := w } } }

def Heap.setMem (h : Heap) (w : Mem) : Heap := { h with mem := w, tier := fun k => setW w (h.tier k) }

inductive Ev
  /-- a step of the per-CPU caches other than an answer to a refill; a batch it releases is inserted in transfer cache `i`
  of its class -/
  | cpu (e : CpuCache.Ev) (i : Nat) (hint : Bool)
  /-- thread `th` calls `RemoveRange` of transfer cache `i` of the class it refills -/
  | ask (th i : Nat) (hint hint0 : Bool)
  /-- the `j`-th waiting `Populate` of class `k` goes on, with a span or without -/
  | answer (k j : Nat) (run : Option Run)
  /-- a step inside the middle tier of class `k` -/
  | tier (k : Nat) (e : TransferCache.Ev)
  /-- a step of the page heap of tag `t`, called by `who`; memory after it -/
  | page (t : Nat) (e : PageHeap.Ev) (who : Owner) (w : Mem)
  /-- users write -/
  | write (w : Mem)
  /-- the kernel takes pages away -/
  | kernel (w : Mem)

/-- What a step shows: what the per-CPU caches show, what the page heap of a tag shows. -/
inductive Out
  | tau
  | cpu (o : CpuCache.Out)
  | page (t : Nat) (r : PageHeap.Res)

/-- The spans `freed` are no longer the central free list's (central_freelist.h:656-674). -/
def retire (k : Nat) (freed : List Nat) (x : Owner × Run) : Owner × Run :=
  if x.1 = .lent k ∧ x.2.p ∈ freed then (.dying k, x.2) else x

/-- The middle tier of class `k` is now `y`, and has given up the spans `freed`. -/
def Heap.putTier (h : Heap) (k : Nat) (y : TransferCache.World) (freed : List Nat) : Heap :=
  { h with tier := upd h.tier k y, led := h.led.map (retire k freed) }.setMem y.x.c.w

/-- A step of the middle tier of class `k`, with its effects on memory and the emptied spans. -/
def Heap.onTier (cfg : Cfg) (h : Heap) (k : Nat) (e : TransferCache.Ev) : Option (Heap × TransferCache.Out) :=
  (TransferCache.step (cfg.geo k) (cfg.cpu.batch k) (h.tier k) e).map fun (y, o) =>
    (h.putTier k y o.freed, o)

/-- The span is the central free list's. -/
def enrol (led : List (Owner × Run)) (k : Nat) : Option Run → List (Owner × Run)
  | some r => (.lent k, r) :: led.erase (.fresh k, r)
  | none => led

/-- The thread has its objects (or its refusal). -/
def Heap.deliver (cfg : Cfg) (h : Heap) (th : Nat) (l : List Nat) : Option (Heap × Out) :=
  (CpuCache.step cfg.cpu h.cpu (.fetched th l)).map fun (c, o) => ({ h with cpu := c }, .cpu o)

/-- The ledger after a step of the page heap. -/
def ledger (led : List (Owner × Run)) (who : Owner) : PageHeap.Ev → PageHeap.Out → List (Owner × Run)
  | .delete r _ _ _, _ => led.erase (who, r)
  | _, .run r _ => (who, r) :: led
  | _, _ => led

def step (cfg : Cfg) (h : Heap) : Ev → Option (Heap × Out)
  | .cpu e i hint =>
    (CpuCache.step cfg.cpu h.cpu e).bind fun (c, o) =>
      match o with
      | .toBacking k l => (Heap.onTier cfg { h with cpu := c } k (.insert i l hint)).map fun (h, _) => (h, .cpu o)
      | _ => some ({ h with cpu := c }, .cpu o)
  | .ask th i hint hint0 =>
    ((h.cpu.th[th]?).bind CpuCache.St.asks).bind fun (k, n) =>
      (h.onTier cfg k (.remove i n hint hint0)).bind fun (h, o) =>
        match o.got with
        | some l => h.deliver cfg th l
        | none => some ({ h with wait := upd h.wait k (th :: h.wait k) }, .tau)
  | .answer k j run =>
    ((h.wait k)[j]?).bind fun th =>
      (h.onTier cfg k (.populate j (run.map Run.p))).bind fun (h, o) =>
        { h with wait := upd h.wait k ((h.wait k).eraseIdx j), led := enrol h.led k run }.deliver cfg th (o.got.getD [])
  | .tier k e => (h.onTier cfg k e).map fun (h, _) => (h, .tau)
  | .page t e who w =>
    ((h.page t).step cfg.H cfg.N cfg.mode e).map fun (s, r) =>
      ({ h with
          page := upd h.page t s
          ob := upd h.ob t (r.got ++ h.ob t)
          runs := upd h.runs t (PageHeap.live' (h.runs t) e r.out)
          led := ledger h.led who e r.out }.setMem w, .page t r)
  | .write w => some (h.setMem w, .tau)
  | .kernel w => some (h.setMem w, .tau)

end Verif.Heap
