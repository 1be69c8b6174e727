import Verif.ThreadHeap.Front
import Verif.Heap.Tier
import Verif.Heap.Pages
/-!
The whole heap in per-thread mode: the per-thread caches (`Verif/ThreadCache`), for every size class the transfer caches and
the central free list (`Verif/TransferCache` on `Verif/CentralFreeList` on `Verif/Span`), for every memory tag a page heap
(`Verif/PageHeap` and what is below it), and one memory.  The parts are the models of those directories themselves; this
file wires them as the code does:

* a batch a thread cache releases goes to `InsertRange` of the transfer cache of its class (thread_cache.cc:169, 176), and so
  does an object freed by a thread without a cache (tcmalloc.cc:586-591);
* a miss calls `RemoveRange` there (thread_cache.cc:100-102), and the first object of the answer is the caller's;
* a `RemoveRange` that ends in `Populate` gets its span from the page heap of the tag of the class
  (central_freelist.cc:54-62, 114-135), without holding the lock, and the objects go to the thread that asked;
* spans the central free list has emptied go back to that page heap (central_freelist.h:669-674, central_freelist.cc:149-200);
* larger requests take runs of pages (tcmalloc.cc:632-660) and give them back (tcmalloc.cc:668-750);
* the free lists of the thread caches are linked through their objects (linked_list.h:37-53, 81-115): threads write to
  objects in their caches.

Every lock region of every part is a step of its own, so the parts interleave freely.  Kernel and page heap may change
memory that is being returned to the kernel, or is new; users write to their blocks.

Simplified: as in `Verif/Heap/Model.lean`.  The thread caches may write anything to the objects they have, at any time.  The code
uses the main transfer cache (index 0) only; here any may be used.
-/
namespace Verif.ThreadHeap
open Verif.Span (Geo Mem)
open Verif.PageHeap (HP Run)
open Verif.HugeAddressMap (Rng)

/-- Per-thread caches, geometry of the spans of each class (common.h, sizemap), the tag whose page heap serves the class
(central_freelist.cc:54-62), the constants of the page heap (see `Verif/PageHeap`), the page shift. -/
structure Cfg where
  tc : ThreadCache.Cfg
  geo : Nat → Geo
  tag : Nat → Nat
  H : Nat
  N : Nat
  mode : Bool
  ps : Nat

/-- Who has a run of pages that is out of the page heap: a `Populate` of class `k` between `AllocateSpan` and
`lock_.lock()` (central_freelist.h:796-811), the central free list of `k`, an `InsertRange` of `k` between
unlocking and the end of `DeallocateSpans` (central_freelist.h:666-674), a user of tag `t`. -/
inductive Owner
  | fresh (k : Nat)
  | lent (k : Nat)
  | dying (k : Nat)
  | big (t : Nat)
deriving DecidableEq

/-- The tag of the page heap the run is from. -/
def Owner.tag (cfg : Cfg) : Owner → Nat
  | .fresh k | .lent k | .dying k => cfg.tag k
  | .big t => t

/-- `wait k`: the thread caches whose owners make the waiting calls of the central free list of class `k` (in its order).  `ob t`: the ranges
the page heap of tag `t` has obtained.  `led`: the runs that are out, with their owners. -/
structure Heap where
  tc : ThreadCache.W
  tier : Nat → TransferCache.World
  wait : Nat → List Nat
  page : Nat → HP
  ob : Nat → List Rng
  runs : Nat → List Run
  led : List (Owner × Run)
  mem : Mem

def upd {α : Type} (f : Nat → α) (i : Nat) (v : α) : Nat → α := fun j => if j = i then v else f j

/-- Everybody sees the same memory. -/
def setW (w : Mem) (y : TransferCache.World) : TransferCache.World := { y with x := { y.x with c := { y.x.c with w := w } } }

def Heap.setMem (h : Heap) (w : Mem) : Heap := { h with mem := w, tier := fun k => setW w (h.tier k) }

inductive Ev
  /-- a step of the per-thread caches other than an answer to a miss; a batch it releases is inserted in transfer cache `i`
  of its class -/
  | tc (e : ThreadCache.Ev) (i : Nat) (hint : Bool)
  /-- the owner of thread cache `th` calls `RemoveRange` of transfer cache `i` of the class it has run out of -/
  | ask (th i : Nat) (hint hint0 : Bool)
  /-- the `j`-th waiting `Populate` of class `k` goes on, with a span or without -/
  | answer (k j : Nat) (run : Option Run)
  /-- a step inside the middle tier of class `k` -/
  | tier (k : Nat) (e : TransferCache.Ev)
  /-- a step of the page heap of tag `t`, called by `who`; memory after it -/
  | page (t : Nat) (e : PageHeap.Ev) (who : Owner) (w : Mem)
  /-- threads link objects in their caches -/
  | link (w : Mem)
  /-- users write -/
  | write (w : Mem)
  /-- the kernel takes pages away -/
  | kernel (w : Mem)

/-- What a step shows: what the per-thread caches show, what the page heap of a tag shows. -/
inductive Out
  | tau
  | tc (o : ThreadCache.Out)
  | page (t : Nat) (r : PageHeap.Res)

/-- The spans `freed` are no longer the central free list's (central_freelist.h:656-674). -/
def retire (k : Nat) (freed : List Nat) (x : Owner × Run) : Owner × Run :=
  if x.1 = .lent k ∧ x.2.p ∈ freed then (.dying k, x.2) else x

/-- The middle tier of class `k` is now `y`, and has given up the spans `freed`. -/
def Heap.putTier (h : Heap) (k : Nat) (y : TransferCache.World) (freed : List Nat) : Heap :=
  { h with tier := upd h.tier k y, led := h.led.map (retire k freed) }.setMem y.x.c.w

/-- A step of the middle tier of class `k`, with its effects on memory and the emptied spans. -/
def Heap.onTier (cfg : Cfg) (h : Heap) (k : Nat) (e : TransferCache.Ev) : Option (Heap × TransferCache.Out) :=
  (TransferCache.step (cfg.geo k) (cfg.tc.batch k) (h.tier k) e).map fun (y, o) =>
    (h.putTier k y o.freed, o)

/-- The span is the central free list's. -/
def enrol (led : List (Owner × Run)) (k : Nat) : Option Run → List (Owner × Run)
  | some r => (.lent k, r) :: led.erase (.fresh k, r)
  | none => led

/-- The thread has its objects (or its refusal). -/
def Heap.deliver (cfg : Cfg) (h : Heap) (th : Nat) (l : List Nat) : Option (Heap × Out) :=
  (ThreadCache.step cfg.tc h.tc (.fetched th l)).map fun (c, o) => ({ h with tc := c }, .tc o)

/-- The ledger after a step of the page heap. -/
def ledger (led : List (Owner × Run)) (who : Owner) : PageHeap.Ev → PageHeap.Out → List (Owner × Run)
  | .delete r _ _ _, _ => led.erase (who, r)
  | _, .run r _ => (who, r) :: led
  | _, _ => led

def step (cfg : Cfg) (h : Heap) : Ev → Option (Heap × Out)
  | .tc e i hint =>
    (ThreadCache.step cfg.tc h.tc e).bind fun (c, o) =>
      match o with
      | .toBacking k l => (Heap.onTier cfg { h with tc := c } k (.insert i l hint)).map fun (h, _) => (h, .tc o)
      | _ => some ({ h with tc := c }, .tc o)
  | .ask th i hint hint0 =>
    (h.tc.asks th).bind fun (k, n) =>
      (h.onTier cfg k (.remove i n hint hint0)).bind fun (h, o) =>
        match o.got with
        | some l => h.deliver cfg th l
        | none => some ({ h with wait := upd h.wait k (th :: h.wait k) }, .tau)
  | .answer k j run =>
    ((h.wait k)[j]?).bind fun th =>
      (h.onTier cfg k (.populate j (run.map Run.p))).bind fun (h, o) =>
        { h with wait := upd h.wait k ((h.wait k).eraseIdx j), led := enrol h.led k run }.deliver cfg th (o.got.getD [])
  | .tier k e => (h.onTier cfg k e).map fun (h, _) => (h, .tau)
  | .page t e who w =>
    ((h.page t).step cfg.H cfg.N cfg.mode e).map fun (s, r) =>
      ({ h with
          page := upd h.page t s
          ob := upd h.ob t (r.got ++ h.ob t)
          runs := upd h.runs t (PageHeap.live' (h.runs t) e r.out)
          led := ledger h.led who e r.out }.setMem w, .page t r)
  | .link w => some (h.setMem w, .tau)
  | .write w => some (h.setMem w, .tau)
  | .kernel w => some (h.setMem w, .tau)

end Verif.ThreadHeap
