import Verif.Slab.Model
/-!
Model of the per-CPU caches, /repo/tcmalloc/cpu_cache.h, on top of the slabs (`Verif.Slab`): allocation and
deallocation with their slow paths, refill and overflow, growing, draining, resizing of size classes, stealing
between CPUs, resizing of the slabs and release of the memory of drained slabs.

Granularity.  Every thread runs a program (`St`); a step of a thread is one step of the slab operation it is in, one
atomic access to a budget counter (`resize_[cpu].available`, `resize_[cpu].capacity`), or one call of the layer below,
the backing cache (transfer caches).  The steps of all threads interleave arbitrarily.  What the layer below answers
is arbitrary (event `fetched`), restricted by `Pre` to what `Verif.TransferCache` guarantees.

Arbitrary choices of the environment (`Ch`): unlocked reads of capacities, the counters kept in
`PerClassResizeInfo` (cpu_cache.h:200-330), the choice of classes and CPUs to shrink and grow and of CPUs to steal
from, which all come from miss statistics.  Not modelled: statistics, hooks other than that they may uncache the
slab pointer, `MadviseAwaySlabs`' accounting.  `none` stands for a failed check, an arithmetic wrap-around of a
budget counter or an access out of bounds.
-/
namespace Verif.CpuCache

/-- `kMaxObjectsToMove`, common.h. -/
def kMaxObjectsToMove : Nat := 128

/-- The slabs' parameters; `class_to_size`, `num_objects_to_move`, `BypassCpuCache` (cpu_cache.h:1247-1255). -/
structure Cfg where
  slab : Slab.Cfg
  size : Nat → Nat
  batch : Nat → Nat
  bypass : Nat → Bool

/-- The request a slow path serves. -/
inductive Req where
  | alloc (k : Nat)
  | free (k o : Nat)
deriving DecidableEq, Repr

def Req.cls : Req → Nat
  | .alloc k => k
  | .free k _ => k

/-- Local variables of `Refill` (cpu_cache.h:1217-1245).  `fetched`, `stored` and `back` record the objects obtained
from the backing cache, put into the slab and given back. -/
structure Refill where
  k : Nat
  target : Nat
  total : Nat
  res : Option Nat
  fetched : List Nat
  stored : List Nat
  back : List Nat
deriving DecidableEq, Repr

/-- Local variables of the second half of `DeallocateSlowNoHooks` (cpu_cache.h:2134-2152).  `popped` and `sent`
record the objects taken from the slab and given to the backing cache. -/
structure Over where
  k : Nat
  obj : Nat
  target : Nat
  total : Nat
  batch : List Nat
  popped : List Nat
  sent : List Nat
deriving DecidableEq, Repr

/-- Where `StealFromOtherCache` is: choosing the next source; having taken `b` bytes from `src` (from its `available`
counter or, `locked`, by shrinking a class) that its `capacity` counter still includes; waiting for the lock of `src`;
shrinking classes of `src`; between the two final updates. -/
inductive Phase where
  | pick
  | pend (src b : Nat) (locked : Bool)
  | lock (src : Nat)
  | work (src : Nat)
  | last
deriving DecidableEq, Repr

/-- What a thread is doing. -/
inductive St where
  | idle
  /-- `AllocateFast`/`DeallocateFast` (cpu_cache.h:847-866); `again`: second attempt, with the CPU -/
  | pop (k : Nat) (again : Option Nat)
  | push (k o : Nat) (again : Option Nat)
  /-- start of the slow path; in `CacheCpuSlab`; about to try again -/
  | slow (q : Req)
  | caching (q : Req)
  | retry (q : Req) (c : Nat)
  /-- one object from or to the backing cache -/
  | direct (k : Nat)
  | sendOne (k o : Nat)
  /-- `UpdateCapacity` and `Grow` -/
  | upd (q : Req) (c : Nat)
  | grow (q : Req) (c succ inc : Nat)
  | growing (q : Req) (c succ len got : Nat)
  | grown (q : Req) (c succ unused : Nat)
  | target (q : Req) (succ : Nat)
  /-- `Refill`: waiting for the backing cache; `PushBatch`; giving back; return -/
  | fetch (r : Refill)
  | store (r : Refill) (l : List Nat) (got : Nat)
  | storing (r : Refill) (l : List Nat) (got : Nat)
  | back (r : Refill) (l : List Nat)
  | done (r : Refill)
  /-- overflow: `PopBatch`; giving to the backing cache; return -/
  | gather (v : Over)
  | gathering (v : Over) (n : Nat)
  | flush (v : Over)
  | fdone (v : Over)
  /-- `Drain`: waiting for the lock; at work (drained yet?, bytes, batches still to be given to the backing cache) -/
  | drain0 (c : Nat)
  | drain (c : Nat) (done : Bool) (bytes : Nat) (out : List (Nat × List Nat))
  /-- `ResizeCpuSizeClasses`: waiting for the lock; at work; about to return the rest of the bytes -/
  | classes0 (c av : Nat)
  | classes (c av : Nat) (out : List (Nat × List Nat))
  | classes1 (c av : Nat)
  /-- `StealFromOtherCache` -/
  | steal (dst bytes acq : Nat) (ph : Phase) (out : List (Nat × List Nat))
  /-- `ResizeSlabs`, `UpdateMaxCapacities`, `ReleaseSlabMetadataForDrainedCpus` -/
  | all (out : List (Nat × List Nat))
deriving DecidableEq, Repr

/-- The state: slabs, budget counters per CPU, programs of the threads, objects with the user. -/
structure W where
  s : Slab.W
  avail : Nat → Nat
  cap : Nat → Nat
  th : List St
  user : List (Nat × Nat)

/-- Choices of the environment: those of the slabs, and the values read by `UpdateCapacity`. -/
structure Ch where
  s : Slab.Ch
  cap : Nat
  mx : Nat
  succ : Nat
  byBatch : Bool

/-- What a step shows. -/
inductive Out where
  | tau
  /-- return of an allocation; with the record of the refill, if there was one -/
  | allocated (k : Nat) (o : Option Nat) (r : Option Refill)
  | freed (k o : Nat) (v : Option Over)
  /-- `ReleaseToBackingCache` -/
  | toBacking (k : Nat) (l : List Nat)
  | drained (c bytes : Nat)
  | finished
deriving DecidableEq, Repr

/-! ## Helpers -/

def upd (f : Nat → Nat) (c v : Nat) : Nat → Nat := fun c' => if c' = c then v else f c'

/-- Thread `i` goes on at `st`. -/
def W.go (w : W) (i : Nat) (st : St) : W := { w with th := w.th.set i st }

/-- `resize_[c].available.fetch_add(b)`; `none` if it wraps. -/
def W.addAvail (w : W) (c b : Nat) : Option W :=
  if w.avail c + b < 2 ^ 64 then some { w with avail := upd w.avail c (w.avail c + b) } else none

/-- `ReleaseToBackingCache`, cpu_cache.h:1165-1174: the objects leave; asserted bounds of `InsertRange`
(transfer_cache.h). -/
def W.release (w : W) (k : Nat) (l : List Nat) : Option (W × Out) :=
  if l = [] ∨ kMaxObjectsToMove < l.length then none
  else some ({ w with s := { w.s with held := Slab.eraseAll w.s.held (l.map fun o => (k, o)) } }, .toBacking k l)

/-- One step of the slab operation of thread `i`. -/
def W.act (cfg : Cfg) (w : W) (i : Nat) (ch : Slab.Ch) (f : W → Slab.Out → Option (W × Out)) : Option (W × Out) :=
  match Slab.step cfg.slab w.s (.act i ch) with
  | some (s, o) => f { w with s := s } o
  | none => none

/-- Thread `i` starts a slab operation. -/
def W.call (cfg : Cfg) (w : W) (i : Nat) (op : Slab.Op) (f : W → Slab.Out → Option (W × Out)) : Option (W × Out) :=
  match Slab.step cfg.slab w.s (.call i op) with
  | some (s, o) => f { w with s := s } o
  | none => none

/-- Thread `i` starts a slab operation and goes on at `st`. -/
def W.start (cfg : Cfg) (w : W) (i : Nat) (op : Slab.Op) (st : St) : Option (W × Out) :=
  w.call cfg i op fun w _ => some (w.go i st, .tau)

/-- The slab operation of thread `i` is over. -/
def W.slabIdle (w : W) (i : Nat) : Bool :=
  match w.s.thr[i]? with
  | some th => decide (th.pc = .idle)
  | none => false

/-- CPU `c` is locked, stopped and fenced, and the holder of the lock may choose what to do. -/
def W.ready (w : W) (c : Nat) : Bool :=
  match w.s.rem c with
  | some (_, .ready false) => true
  | _ => false

/-- The lock of CPU `c` is free. -/
def W.lockFree (w : W) (c : Nat) : Bool := (w.s.rem c).isNone && w.s.allFree

/-- Capacity of class `k` read by the holder of the lock of the stopped CPU `c`. -/
def W.capNow (w : W) (c k : Nat) : Nat := (w.s.mem.hdr w.s.slabs c k).fin - w.s.begins k

/-- The batches the loop of `DrainHandler` (cpu_cache.h:2252-2255) cuts `l` into; `n` bounds the iterations. -/
def chunks (b : Nat) : Nat → List Nat → List (List Nat)
  | 0, _ => []
  | n + 1, l => if l = [] then [] else l.take b :: chunks b n (l.drop b)

/-- `DrainHandler`, cpu_cache.h:2240-2260: the capacity goes back to the CPU's budget; the batches to be given to the
backing cache.  With `batch_length = 0` the loop would not end. -/
def W.handle (cfg : Cfg) (w : W) (c k : Nat) (l : List Nat) (cap : Nat) : Option (W × List (Nat × List Nat)) :=
  if l ≠ [] ∧ cfg.batch k = 0 then none
  else (w.addAvail c (cap * cfg.size k)).map fun w => (w, (chunks (cfg.batch k) l.length l).map fun b => (k, b))

/-- `TargetOverflowRefillCount`, cpu_cache.h:1270-1306. -/
def targetCount (capacity batch succ : Nat) : Nat :=
  if capacity = 1 ∧ succ < 3 then 1
  else min ((capacity + 1) / 2 + 1) (2 ^ min succ 10 * batch)

/-- `UpdateCapacity`, cpu_cache.h:1334-1356: by how much to grow; `none`: not at all.  `max_capacity - capacity` wraps
if a resize of the slabs came between the two reads; the minimum is then the batch length. -/
def increase (alloc : Bool) (capacity mx batch : Nat) (byBatch : Bool) : Option Nat :=
  if (capacity < 2 * batch ∨ byBatch) ∧ capacity ≠ mx then
    some (if byBatch then (if mx < capacity then batch else min batch (mx - capacity))
      else if alloc ∧ capacity < batch then batch - capacity
      else 1)
  else none

/-- `subtract_at_least`, cpu_cache.h:1389-1402: what it subtracts from `a`. -/
def subtractAtLeast (a mn mx : Nat) : Nat := if a < mn then 0 else min a mx

/-- Loop condition of `Refill`, cpu_cache.h:1243 (all of the batch stored). -/
def Refill.next (r : Refill) (got : Nat) : St :=
  if got = kMaxObjectsToMove ∧ r.total < r.target then .fetch r else .done r

/-- `Refill` after `FetchFromBackingCache` returned `l`, cpu_cache.h:1230-1238. -/
def Refill.got (r : Refill) (l : List Nat) : St :=
  if l = [] then .done r
  else
    let r' := { r with total := r.total + l.length, fetched := r.fetched ++ l }
    match r.res with
    | none =>
      let r' := { r' with res := l.getLast? }
      if l.dropLast = [] then r'.next l.length else .store r' l.dropLast l.length
    | some _ => .store r' l l.length

/-- What the holder of the lock of CPU `c` with `av` bytes in hand does next in `ResizeCpuSizeClasses`
(cpu_cache.h:1788-1840): shrink some class by one, if its capacity is not zero, grow some class by as much as the
maximal capacity and the bytes permit, or stop. -/
def W.classesCh (cfg : Cfg) (w : W) (c av : Nat) (ch : Slab.Ch) : Slab.Ch :=
  if w.ready c then
    if ch.op = 2 ∧ w.capNow c ch.k ≠ 0 then { ch with len := 1 }
    else if 3 ≤ ch.op ∧ min (w.s.caps ch.k - w.capNow c ch.k) (av / cfg.size ch.k) ≠ 0 then
      { ch with op := 3, len := min (w.s.caps ch.k - w.capNow c ch.k) (av / cfg.size ch.k) }
    else { ch with op := 0 }
  else ch

/-- The same in `StealFromOtherCache` (cpu_cache.h:1976-1993): shrink some class by one while more bytes are wanted. -/
def W.stealCh (w : W) (c : Nat) (more : Bool) (ch : Slab.Ch) : Slab.Ch :=
  if w.ready c then
    if ch.op = 2 ∧ more ∧ w.capNow c ch.k ≠ 0 then { ch with len := 1 } else { ch with op := 0 }
  else ch

/-- `Drain`: drain, then stop. -/
def W.drainCh (w : W) (c : Nat) (done : Bool) (ch : Slab.Ch) : Slab.Ch :=
  if w.ready c then { ch with op := if done then 0 else 1 } else ch

/-- The step of thread `i` is the one at which `ReleaseSlabMetadataForDrainedCpus` unpopulates the CPUs in
`ch.set` (percpu_tcmalloc.h:1563-1600). -/
def unpopulates (cfg : Cfg) (w : W) (ch : Slab.Ch) : Bool :=
  match w.s.rs with
  | some (_, r) => r.plan.isNone && r.post.isNone && r.todo == some [] && decide (4 ≤ ch.op) &&
      ((List.range cfg.slab.n).all fun c => !(ch.set c && w.s.populated c) || w.s.drained cfg.slab.nc c)
  | none => false

/-- `TC_CHECK_EQ(available, capacity)`, cpu_cache.h:1470-1473, for all CPUs unpopulated. -/
def checkRelease (cfg : Cfg) (w : W) (ch : Slab.Ch) : Bool :=
  !unpopulates cfg w ch || (List.range cfg.slab.n).all fun c => !ch.set c || decide (w.avail c = w.cap c)

/-! ## Steps -/

/-- Allocation and deallocation, fast paths and the way to the slow paths: cpu_cache.h:838-866, 1177-1203,
2107-2132. -/
def stepFast (cfg : Cfg) (w : W) (i : Nat) (ch : Ch) : St → Option (W × Out)
  | .pop k again => w.act cfg i ch.s fun w o =>
    match o with
    | .tau => some (w, .tau)
    | .popped (some x) => some ({ w.go i .idle with user := (k, x) :: w.user }, .allocated k (some x) none)
    | .popped none =>
      some (w.go i (match again with | some c => .upd (.alloc k) c | none => .slow (.alloc k)), .tau)
    | _ => none
  | .push k x again => w.act cfg i ch.s fun w o =>
    match o with
    | .tau => some (w, .tau)
    | .pushed true => some (w.go i .idle, .freed k x none)
    | .pushed false =>
      some (w.go i (match again with | some c => .upd (.free k x) c | none => .slow (.free k x)), .tau)
    | _ => none
  | .slow q =>
    if cfg.bypass q.cls then
      some (w.go i (match q with | .alloc k => .direct k | .free k o => .sendOne k o), .tau)
    else w.call cfg i .cache fun w o =>
      match o with
      -- the pointer was cached: a miss
      | .cached (some v) => some (w.go i (.upd q v), .tau)
      | .tau => some (w.go i (.caching q), .tau)
      | _ => none
  | .caching q => w.act cfg i ch.s fun w o =>
    match o with
    | .tau => some (w, .tau)
    | .cached none => some (w.go i (match q with | .alloc k => .direct k | .free k o => .sendOne k o), .tau)
    | .cached (some v) => some (w.go i (.retry q v), .tau)
    | _ => none
  | .retry (.alloc k) c => w.start cfg i (.pop k) (.pop k (some c))
  | .retry (.free k o) c => w.start cfg i (.push k o) (.push k o (some c))
  | .direct _ => some (w, .tau)
  | .sendOne k o => (w.release k [o]).map fun x => (x.1.go i (.fdone ⟨k, o, 1, 1, [], [], [o]⟩), x.2)
  | _ => none

/-- `UpdateCapacity` and `Grow`: cpu_cache.h:1310-1364, 1404-1429. -/
def stepGrow (cfg : Cfg) (w : W) (i : Nat) (ch : Ch) : St → Option (W × Out)
  | .upd q c =>
    match increase (match q with | .alloc _ => true | .free .. => false) ch.cap ch.mx (cfg.batch q.cls) ch.byBatch with
    | some inc => some (w.go i (.grow q c ch.succ inc), .tau)
    | none => some (w.go i (.target q ch.succ), .tau)
  | .grow q c succ inc =>
    let size := cfg.size q.cls
    let got := subtractAtLeast (w.avail c) size (inc * size)
    if got = 0 then some (w.go i (.target q succ), .tau)
    else if size = 0 ∨ got / size = 0 ∨ inc < got / size then none
    else
      ({ w with avail := upd w.avail c (w.avail c - got) }).start cfg i (.grow q.cls (got / size))
        (.growing q c succ (got / size) got)
  | .growing q c succ _ got => w.act cfg i ch.s fun w o =>
    match o with
    | .tau => some (w, .tau)
    | .grew n =>
      if got < n * cfg.size q.cls then none
      else some (w.go i (.grown q c succ (got - n * cfg.size q.cls)), .tau)
    | _ => none
  | .grown q c succ b => (w.addAvail c b).map fun w => (w.go i (.target q succ), .tau)
  | .target q succ =>
    let t := targetCount ch.cap (cfg.batch q.cls) succ
    if t = 0 ∨ ch.cap + 1 < t then none
    else
      match q with
      | .alloc k => some (w.go i (.fetch ⟨k, t, 0, none, [], [], []⟩), .tau)
      | .free k o => some (w.go i (.gather ⟨k, o, t, 0, [o], [], []⟩), .tau)
  | _ => none

/-- `Refill`, cpu_cache.h:1217-1245. -/
def stepRefill (cfg : Cfg) (w : W) (i : Nat) (ch : Ch) : St → Option (W × Out)
  | .fetch r => if r.target ≤ r.total then none else some (w, .tau)
  | .store r l got => w.start cfg i (.pushB r.k l) (.storing r l got)
  | .storing r l got => w.act cfg i ch.s fun w o =>
    match o with
    | .tau => some (w, .tau)
    | .pushedB n =>
      if l.length < n then none
      else
        let r' := { r with stored := r.stored ++ l.drop (l.length - n) }
        some (w.go i (if l.take (l.length - n) = [] then r'.next got else .back r' (l.take (l.length - n))), .tau)
    | _ => none
  | .back r l => (w.release r.k l).map fun x => (x.1.go i (.done { r with back := l }), x.2)
  | .done r =>
    some ({ w.go i .idle with user := (r.res.toList.map fun o => (r.k, o)) ++ w.user }, .allocated r.k r.res (some r))
  | _ => none

/-- The overflow path, cpu_cache.h:2134-2152. -/
def stepOver (cfg : Cfg) (w : W) (i : Nat) (ch : Ch) : St → Option (W × Out)
  | .gather v =>
    if v.target ≤ v.total then none
    else
      let want := min kMaxObjectsToMove (v.target - v.total)
      if v.batch.length < want then
        w.start cfg i (.popB v.k (want - v.batch.length)) (.gathering v (want - v.batch.length))
      else some (w.go i (.flush v), .tau)
  | .gathering v _ => w.act cfg i ch.s fun w o =>
    match o with
    | .tau => some (w, .tau)
    | .poppedB l =>
      let v' := { v with batch := v.batch ++ l, popped := v.popped ++ l }
      some (w.go i (if v'.batch = [] then .fdone v' else .flush v'), .tau)
    | _ => none
  | .flush v => (w.release v.k v.batch).map fun x =>
      let v' := { v with total := v.total + v.batch.length, sent := v.sent ++ v.batch, batch := [] }
      (x.1.go i (if v.batch.length ≠ kMaxObjectsToMove ∨ v'.target ≤ v'.total then .fdone v' else .gather v'), x.2)
  | .fdone v => some (w.go i .idle, .freed v.k v.obj (some v))
  | _ => none

/-- `Drain`, cpu_cache.h:2262-2289, and `ResizeCpuSizeClasses`, 1753-1846, with `ShrinkOtherCache`, 2012-2069. -/
def stepCpu (cfg : Cfg) (w : W) (i : Nat) (ch : Ch) : St → Option (W × Out)
  | .drain0 c =>
    if w.lockFree c then w.start cfg i (.remote c) (.drain c false 0 []) else some (w, .tau)
  | .drain c done bytes ((k, l) :: out) =>
    (w.release k l).map fun x => (x.1.go i (.drain c done bytes out), x.2)
  | .drain c done bytes [] =>
    let done' := done || w.ready c
    w.act cfg i (w.drainCh c done ch.s) fun w o =>
      match o with
      | .tau => if w.slabIdle i then some (w.go i .idle, .drained c bytes)
        else some (w.go i (.drain c done' bytes []), .tau)
      | .handed c' k l cap => (w.handle cfg c' k l cap).map fun x =>
          (x.1.go i (.drain c done' (bytes + l.length * cfg.size k) x.2), .tau)
      | _ => none
  | .classes0 c av =>
    if w.lockFree c then w.start cfg i (.remote c) (.classes c av []) else some (w, .tau)
  | .classes c av ((k, l) :: out) => (w.release k l).map fun x => (x.1.go i (.classes c av out), x.2)
  | .classes c av [] =>
    w.act cfg i (w.classesCh cfg c av ch.s) fun w o =>
      match o with
      | .tau => if w.slabIdle i then some (w.go i (.classes1 c av), .tau) else some (w, .tau)
      | .handed _ k l _ =>
        if 1 < l.length then none
        else some (w.go i (.classes c av (if l = [] then [] else [(k, l)])), .tau)
      | .shrunk _ k n => some (w.go i (.classes c (av + if n = 0 then 0 else cfg.size k) []), .tau)
      | .grewOther _ k n =>
        if av < n * cfg.size k then none else some (w.go i (.classes c (av - n * cfg.size k) []), .tau)
      | _ => none
  | .classes1 c av => (w.addAvail c av).map fun w => (w.go i .idle, .finished)
  | _ => none

/-- `StealFromOtherCache`, cpu_cache.h:1903-2009. -/
def stepSteal (cfg : Cfg) (w : W) (i : Nat) (ch : Ch) (dst bytes acq : Nat) :
    Phase → List (Nat × List Nat) → Option (W × Out)
  | .work src, (k, l) :: out => (w.release k l).map fun x => (x.1.go i (.steal dst bytes acq (.work src) out), x.2)
  | .work src, [] =>
    w.act cfg i (w.stealCh src (decide (acq < bytes)) ch.s) fun w o =>
      match o with
      | .tau => if w.slabIdle i then some (w.go i (.steal dst bytes acq .pick []), .tau) else some (w, .tau)
      | .handed _ k l _ =>
        if 1 < l.length then none
        else some (w.go i (.steal dst bytes acq (.work src) (if l = [] then [] else [(k, l)])), .tau)
      | .shrunk _ k n =>
        some (if n = 0 then w else w.go i (.steal dst bytes acq (.pend src (cfg.size k) true) []), .tau)
      | _ => none
  | .pick, _ =>
    if ch.s.op = 0 then
      if acq = 0 then some (w.go i .idle, .finished)
      else (w.addAvail dst acq).map fun w => (w.go i (.steal dst bytes acq .last []), .tau)
    else if acq < bytes ∧ ch.s.k < cfg.slab.n ∧ ch.s.k ≠ dst then
      let b := subtractAtLeast (w.avail ch.s.k) 0 (bytes - acq)
      some ({ w with avail := upd w.avail ch.s.k (w.avail ch.s.k - b) }.go i
        (.steal dst bytes acq (if b ≠ 0 then .pend ch.s.k b false else .lock ch.s.k) []), .tau)
    else some (w, .tau)
  | .pend src b locked, _ =>
    if w.cap src < b then none
    else
      some ({ w with cap := upd w.cap src (w.cap src - b) }.go i
        (.steal dst bytes (acq + b)
          (if locked then .work src else if bytes ≤ acq + b then .pick else .lock src) []), .tau)
  | .lock src, _ =>
    if w.lockFree src then w.start cfg i (.remote src) (.steal dst bytes acq (.work src) []) else some (w, .tau)
  | .last, _ =>
    if w.cap dst + acq < 2 ^ 64 then
      some ({ w with cap := upd w.cap dst (w.cap dst + acq) }.go i .idle, .finished)
    else none

/-- Operations on all CPUs, cpu_cache.h:1463-1483, 1653-1713, 2491-2570. -/
def stepAll (cfg : Cfg) (w : W) (i : Nat) (ch : Ch) : List (Nat × List Nat) → Option (W × Out)
  | (k, l) :: out => (w.release k l).map fun x => (x.1.go i (.all out), x.2)
  | [] =>
    if checkRelease cfg w ch.s then
      w.act cfg i ch.s fun w o =>
        match o with
        | .tau => if w.slabIdle i then some (w.go i .idle, .finished) else some (w, .tau)
        | .handed c k l cap => (w.handle cfg c k l cap).map fun x => (x.1.go i (.all x.2), .tau)
        | _ => none
    else none

/-- One step of thread `i`. -/
def stepTh (cfg : Cfg) (w : W) (i : Nat) (ch : Ch) (st : St) : Option (W × Out) :=
  match st with
  | .idle => some (w, .tau)
  | .pop .. | .push .. | .slow .. | .caching .. | .retry .. | .direct .. | .sendOne .. => stepFast cfg w i ch st
  | .upd .. | .grow .. | .growing .. | .grown .. | .target .. => stepGrow cfg w i ch st
  | .fetch .. | .store .. | .storing .. | .back .. | .done .. => stepRefill cfg w i ch st
  | .gather .. | .gathering .. | .flush .. | .fdone .. => stepOver cfg w i ch st
  | .drain0 .. | .drain .. | .classes0 .. | .classes .. | .classes1 .. => stepCpu cfg w i ch st
  | .steal dst bytes acq ph out => stepSteal cfg w i ch dst bytes acq ph out
  | .all out => stepAll cfg w i ch out

/-- Events: calls by idle threads, steps, answers of the backing cache, the scheduler. -/
inductive Ev where
  | malloc (i k : Nat)
  | free (i k o : Nat)
  /-- `MaybeForceSlowPath`, cpu_cache.h:868-872 -/
  | uncache (i : Nat)
  | drain (i c : Nat)
  | classes (i c : Nat)
  | steal (i dst bytes : Nat)
  | resize (i nb : Nat) (ncaps : Nat → Nat) (lim : Nat)
  | release (i : Nat)
  | act (i : Nat) (ch : Ch)
  | fetched (i : Nat) (l : List Nat)
  | schedOut (i : Nat)
  | schedIn (i c : Nat)
  | signal (i : Nat)

/-- The objects enter from the backing cache. -/
def W.enter (w : W) (k : Nat) (l : List Nat) : W :=
  { w with s := { w.s with held := (l.map fun o => (k, o)) ++ w.s.held } }

/-- An event of the scheduler. -/
def W.sched (cfg : Cfg) (w : W) (e : Slab.Ev) : Option (W × Out) :=
  (Slab.step cfg.slab w.s e).map fun x => ({ w with s := x.1 }, .tau)

/-- One event. -/
def step (cfg : Cfg) (w : W) : Ev → Option (W × Out)
  | .malloc i k => w.start cfg i (.pop k) (.pop k none)
  | .free i k o => ({ w with user := w.user.erase (k, o) }).start cfg i (.push k o) (.push k o none)
  | .uncache i => w.start cfg i .uncache .idle
  | .drain i c => some (w.go i (.drain0 c), .tau)
  -- the check of `available` against `kMaxCpuCacheSize` (cpu_cache.h:1754) is left to the environment
  | .classes i c => some ({ w with avail := upd w.avail c 0 }.go i (.classes0 c (w.avail c)), .tau)
  | .steal i dst bytes => some (w.go i (.steal dst bytes 0 .pick []), .tau)
  | .resize i nb ncaps lim => w.start cfg i (.resize nb ncaps lim) (.all [])
  | .release i => w.start cfg i .release (.all [])
  | .act i ch =>
    match w.th[i]? with
    | some st => stepTh cfg w i ch st
    | none => none
  | .fetched i l =>
    match w.th[i]? with
    | some (.direct k) => some ((w.enter k l).go i (.done ⟨k, 1, l.length, l.getLast?, l, [], []⟩), .tau)
    | some (.fetch r) => some ((w.enter r.k l).go i (r.got l), .tau)
    | _ => none
  | .schedOut i => w.sched cfg (.schedOut i)
  | .schedIn i c => w.sched cfg (.schedIn i c)
  | .signal i => w.sched cfg (.signal i)

/-- `Activate`, cpu_cache.h:1043-1130: every CPU has a budget of `limit` bytes. -/
def W.init (cfg : Cfg) (m : Slab.Mem) (b : Nat) (caps : Nat → Nat) (lim threads limit : Nat) : Option W :=
  (Slab.W.init cfg.slab m b caps lim threads).map fun s =>
    { s := s, avail := fun _ => limit, cap := fun _ => limit, th := List.replicate threads .idle, user := [] }

end Verif.CpuCache
