/-!
Model of the per-CPU slabs: /repo/tcmalloc/internal/percpu_tcmalloc.h, the restartable sequences of
internal/percpu_rseq_x86_64.S, the fences of internal/percpu.cc, and the callers in cpu_cache.h that lock,
stop, populate, drain and resize the CPUs.

Granularity.  Every memory access of a restartable sequence is one step of the machine, and between any two
steps any thread may be preempted, migrated, signalled or fenced.  The remote operations are split at each
load, hand-over and store of a header.  `InitCpuImpl` and `InitSlabs` are one step each: they run while the
CPUs concerned are stopped and fenced (or write memory that is not yet in use); `Props.exclusive` proves that
no other thread is then inside a sequence that uses the memory.

Kernel contract (trusted): at most one thread runs on a (virtual) CPU; when a thread is descheduled,
signalled or hit by a fence, `__rseq_abi.cpu_id_start` is rewritten, which clears the bit
`TCMALLOC_CACHED_SLABS_MASK` of `tcmalloc_slabs` (percpu.h:105-161), and a restartable sequence in progress is
restarted from its beginning.  Memory is sequentially consistent.

Not modelled: prefetching, the sampler word next to `tcmalloc_slabs`, TSAN annotations, `Destroy`, builds
without restartable sequences.  `none` stands for a failed check or an access out of bounds.
-/
namespace Verif.Slab

/-- `Header`, percpu_tcmalloc.h:361-365: word indices relative to the start of the CPU's region. -/
structure Hdr where
  cur : Nat
  fin : Nat
deriving DecidableEq, Repr

/-- The memory of the slabs.  A slab area is named by a number `b` (the `slabs` pointer of
`SlabsAndShift`, percpu_tcmalloc.h:320-353), the region of CPU `c` in it by `(b, c)` (`CpuMemoryStart`,
1072-1075).  `hdr b c k` is the header of class `k` (`GetHeader`, 1078-1084), `slot b c i` the `i`-th word. The
headers occupy the first words of the region; `Layout` proves that no class range contains them. -/
structure Mem where
  hdr : Nat → Nat → Nat → Hdr
  slot : Nat → Nat → Nat → Nat

/-- `StoreHeader`, percpu_tcmalloc.h:1092-1095. -/
def Mem.setH (m : Mem) (b c k : Nat) (h : Hdr) : Mem :=
  { m with hdr := fun b' c' k' => if b' = b ∧ c' = c ∧ k' = k then h else m.hdr b' c' k' }

/-- A store to a word of a region. -/
def Mem.setS (m : Mem) (b c i v : Nat) : Mem :=
  { m with slot := fun b' c' i' => if b' = b ∧ c' = c ∧ i' = i then v else m.slot b' c' i' }

/-- The thread-local word `tcmalloc_slabs`: the cached bit clear, set with no address (percpu_tcmalloc.h:1202),
or set with the start of region `(b, c)`. -/
inductive Ptr where
  | none
  | mask
  | reg (b c : Nat)
deriving DecidableEq, Repr

/-- Program counter and registers of a thread. -/
inductive PC where
  /-- not in a slab operation -/
  | idle
  /-- `Push`, percpu_tcmalloc.h:655-713: about to load `tcmalloc_slabs`, `current`, compare with `end`, store
  the item, store `current + 1` -/
  | push0 (k o : Nat)
  | push1 (k o b c : Nat)
  | push2 (k o b c cur : Nat)
  | push3 (k o b c cur : Nat)
  | push4 (k o b c cur : Nat)
  /-- `Pop`, percpu_tcmalloc.h:829-904: about to load `tcmalloc_slabs`, `current`, the top word, the word
  below it, store `current - 1` -/
  | pop0 (k : Nat)
  | pop1 (k b c : Nat)
  | pop2 (k b c cur : Nat)
  | pop3 (k b c cur res : Nat)
  | pop4 (k b c cur res : Nat)
  /-- `PushBatch`, percpu_rseq_x86_64.S:214-272; `m` words to store, `i` stored -/
  | pushB0 (k : Nat) (l : List Nat)
  | pushB1 (k : Nat) (l : List Nat) (b c : Nat)
  | pushB2 (k : Nat) (l : List Nat) (b c cur : Nat)
  | pushB3 (k : Nat) (l : List Nat) (b c cur m i : Nat)
  /-- `PopBatch`, percpu_rseq_x86_64.S:274-328; `m` words to load, `got` loaded -/
  | popB0 (k n : Nat)
  | popB1 (k n b c : Nat)
  | popB2 (k n b c cur : Nat)
  | popB3 (k n b c cur m : Nat) (got : List Nat)
  /-- `Grow`, percpu_tcmalloc.h:1005-1020: loads of the slabs pointer, maximum, header, begin; then
  `StoreCurrentCpu` -/
  | grow0 (k len : Nat)
  | grow1 (k len b : Nat)
  | grow2 (k len b mx : Nat)
  | grow3 (k len b mx : Nat) (h : Hdr)
  | grow4 (k len b : Nat) (h : Hdr) (n : Nat)
  | grow5 (k len b : Nat) (h : Hdr) (n : Nat)
  /-- `CacheCpuSlabSlow`, percpu_tcmalloc.h:1198-1252: set the bit; read the CPU; load the slabs pointer;
  `StoreCurrentCpu` (test, store); check `stopped`; check the slabs pointer -/
  | cache1
  | cache2
  | cache3 (v : Nat)
  | cache4 (v b : Nat)
  | cache5 (v b : Nat)
  | cache6 (v b : Nat)
  | cache7 (v b : Nat)
  /-- `CpuCache::CacheCpuSlab`, cpu_cache.h:1366-1377: check `populated`; `Populate` waits for the lock -/
  | cache8 (v : Nat)
  | cache9 (v : Nat)
  /-- holds the lock of CPU `c`; the state of the operation is in `W.rem c` -/
  | remote (c : Nat)
  /-- runs an operation on all CPUs; its state is in `W.rs` -/
  | all
deriving DecidableEq, Repr

/-- A thread: the CPU it runs on, `tcmalloc_slabs`, `tcmalloc_cached_vcpu` (percpu.h), the local variable
holding the last result of `CacheCpuSlab`, program counter. -/
structure Thread where
  cpu : Option Nat
  ptr : Ptr
  vcpu : Nat
  ret : Nat
  pc : PC
deriving DecidableEq, Repr

/-- The operation in progress on one locked CPU. -/
inductive RStage where
  /-- lock taken; `pop`: called from `Populate` (cpu_cache.h:1380-1387) -/
  | locked (pop : Bool)
  /-- `stopped` stored, fence to come (percpu_tcmalloc.h:1610-1615) -/
  | stopping (pop : Bool)
  /-- fencing all CPUs (percpu.cc:384-389), those in the list to come -/
  | fencing (pop : Bool) (todo : List Nat)
  /-- stopped and fenced -/
  | ready (pop : Bool)
  /-- `InitCpuImpl` done, CPU still stopped -/
  | inited
  /-- CPU restarted, `populated` not yet stored -/
  | started
  /-- only the unlock is left -/
  | fin (pop : Bool)
  /-- `DrainCpu`, percpu_tcmalloc.h:1256-1277: load, hand over, store -/
  | dr1 (k : Nat)
  | dr2 (k beg : Nat) (h : Hdr)
  | dr3 (k beg : Nat)
  /-- `ShrinkOtherCache`, percpu_tcmalloc.h:1457-1484: load, hand over, store -/
  | sh1 (k len : Nat)
  | sh2 (k len beg : Nat) (h : Hdr)
  | sh3 (k len n : Nat) (h : Hdr)
  /-- `GrowOtherCache`, percpu_tcmalloc.h:1441-1454: load, store -/
  | go1 (k len : Nat)
  | go2 (k len n : Nat) (h : Hdr)
deriving DecidableEq, Repr

/-- Draining one header of the old slabs (percpu_tcmalloc.h:1293-1315). -/
inductive OStage where
  | load
  | hand (h : Hdr)
  | store
deriving DecidableEq, Repr

/-- What is left to do after the new slabs are in place: restart the CPUs, drain the old slabs. -/
structure Post where
  /-- CPUs restarted -/
  started : Nat
  /-- old slabs and old begins; absent for `ReleaseSlabMetadataForDrainedCpus` -/
  old : Option (Nat × (Nat → Nat))
  /-- next CPU and class of the old slabs to drain -/
  oc : Nat
  ok : Nat
  st : OStage
  /-- the locks are released; only `MadviseAwaySlabs` is left (cpu_cache.h:1703-1711, 2549-2555) -/
  unlocked : Bool

/-- An operation on all CPUs: `ResizeSlabs`, `UpdateMaxCapacities` (percpu_tcmalloc.h:1318-1418) or, if `plan` is
absent, `ReleaseSlabMetadataForDrainedCpus` (1494-1607). -/
structure RS where
  /-- new slabs, new maximal capacities, words per region of the new slabs -/
  plan : Option (Nat × (Nat → Nat) × Nat)
  stopd : Nat
  initd : Nat
  todo : Option (List Nat)
  post : Option Post

/-- The whole state.  `caps` are the maximal capacities and `lim` the number of words of a region for the current
`slabs` (`shift`); `stopped` is `state_[cpu].stopped`, `populated` is `resize_[cpu].populated`, `rem` the holders of
`resize_[cpu].lock` with what they are doing.  `held` are the objects outside the slabs (class, object). -/
structure W where
  mem : Mem
  begins : Nat → Nat
  caps : Nat → Nat
  lim : Nat
  slabs : Nat
  stopped : Nat → Bool
  populated : Nat → Bool
  rem : Nat → Option (Nat × RStage)
  rs : Option (Nat × RS)
  thr : List Thread
  held : List (Nat × Nat)

/-- Number of CPUs, `NumClasses`, `UsingRseqVirtualCpus()`. -/
structure Cfg where
  n : Nat
  nc : Nat
  virt : Bool

/-- Choices left to the environment: which of the possible next actions a remote operation takes, and with
which class and count; which CPUs are released and which cells `madvise` zeroed. -/
structure Ch where
  op : Nat
  k : Nat
  len : Nat
  set : Nat → Bool
  zh : Nat → Nat → Bool
  zs : Nat → Nat → Bool

/-- What a step shows to the caller. -/
inductive Out where
  | tau
  | pushed (ok : Bool)
  | popped (o : Option Nat)
  | pushedB (n : Nat)
  | poppedB (l : List Nat)
  | grew (n : Nat)
  | cached (v : Option Nat)
  /-- objects and capacity of a class handed to the caller of `Drain`/`ShrinkOtherCache`/`ResizeSlabs` -/
  | handed (c k : Nat) (l : List Nat) (cap : Nat)
  | shrunk (c k n : Nat)
  | grewOther (c k n : Nat)
deriving DecidableEq, Repr

/-! ## Layout -/

/-- Words taken by the headers: percpu_tcmalloc.h:1123-1124, 1163-1166. -/
def hdrWords (nc : Nat) : Nat := (4 * nc + 7) / 8

/-- The loop of `InitSlabs`, percpu_tcmalloc.h:1125-1140, after class `k`: words consumed and `prev_empty`.
`InitCpuImpl` (1167-1191) walks the same way, with `elems - curr_slab` for the words consumed. -/
def walk (nc : Nat) (caps : Nat → Nat) : Nat → Nat × Bool
  | 0 => (hdrWords nc, false)
  | k + 1 =>
    ((if (walk nc caps k).2 then (walk nc caps k).1 else (walk nc caps k).1 + 1) + caps (k + 1),
      caps (k + 1) == 0)

/-- Index of the first word of class `k ≥ 1`: `consumed_bytes / sizeof(void*)` at percpu_tcmalloc.h:1134, before
the truncation to 16 bits. -/
def beginOf (nc : Nat) (caps : Nat → Nat) (k : Nat) : Nat :=
  if (walk nc caps (k - 1)).2 then (walk nc caps (k - 1)).1 else (walk nc caps (k - 1)).1 + 1

/-- `InitSlabs`, percpu_tcmalloc.h:1119-1141, the values stored in `begins_` (16 bits).  `none`: a capacity is
not a 16-bit number or the region (of `lim` words) is exceeded. -/
def initSlabs (nc : Nat) (caps : Nat → Nat) (lim : Nat) : Option (Nat → Nat) :=
  if ((List.range nc).all fun k => k = 0 || decide (caps k < 65536 ∧ (walk nc caps k).1 ≤ lim)) then
    some (fun k => beginOf nc caps k % 65536)
  else none

/-- `InitCpuImpl`, percpu_tcmalloc.h:1152-1192, one class: the marker (an odd word) unless the previous class is
empty, and the header. -/
def initClass (nc : Nat) (caps : Nat → Nat) (m : Mem) (b c k : Nat) : Mem :=
  let m' := if (walk nc caps (k - 1)).2 then m
    else m.setS b c (walk nc caps (k - 1)).1 (2 * (walk nc caps (k - 1)).1 + 1)
  m'.setH b c k ⟨beginOf nc caps k % 65536, beginOf nc caps k % 65536⟩

/-- The loop of `InitCpuImpl` over classes `1 … k`. -/
def initUpTo (nc : Nat) (caps : Nat → Nat) (m : Mem) (b c : Nat) : Nat → Mem
  | 0 => m
  | k + 1 => initClass nc caps (initUpTo nc caps m b c k) b c (k + 1)

/-- `InitCpuImpl`: the checks of percpu_tcmalloc.h:1155-1156, 1170, 1187 and the loop. -/
def initCpu (nc : Nat) (caps : Nat → Nat) (lim : Nat) (stopped : Bool) (m : Mem) (b c : Nat) : Option Mem :=
  if stopped ∧ lim ≤ 65536 ∧
      ((List.range nc).all fun k => k = 0 || decide (caps k < 65536 ∧ (walk nc caps k).1 ≤ lim)) then
    some (initUpTo nc caps m b c (nc - 1))
  else none

/-! ## The kernel -/

/-- A restartable sequence goes back to its start. -/
def PC.restart : PC → PC
  | .push1 k o _ _ | .push2 k o _ _ _ | .push3 k o _ _ _ | .push4 k o _ _ _ => .push0 k o
  | .pop1 k _ _ | .pop2 k _ _ _ | .pop3 k _ _ _ _ | .pop4 k _ _ _ _ => .pop0 k
  | .pushB1 k l _ _ | .pushB2 k l _ _ _ | .pushB3 k l _ _ _ _ _ => .pushB0 k l
  | .popB1 k n _ _ | .popB2 k n _ _ _ | .popB3 k n _ _ _ _ _ => .popB0 k n
  | .grow5 k len b h n => .grow4 k len b h n
  | .cache5 v b => .cache4 v b
  | pc => pc

/-- What the kernel does to a thread that is descheduled, signalled or fenced (percpu.h:105-161, rseq(2)). -/
def Thread.fix (th : Thread) : Thread := { th with ptr := .none, pc := th.pc.restart }

/-- `membarrier` for CPU `c` issued by thread `i`, percpu.cc:346-358: the thread running there is fixed up. -/
def W.fence (w : W) (i c : Nat) : W :=
  { w with thr := w.thr.mapIdx (fun j th => if j ≠ i ∧ th.cpu = some c then th.fix else th) }

/-- Writes back thread `i`. -/
def W.set (w : W) (i : Nat) (th : Thread) : W := { w with thr := w.thr.set i th }

/-- Thread `i` goes on at `pc`. -/
def W.goto (w : W) (i : Nat) (th : Thread) (pc : PC) : W := w.set i { th with pc := pc }

/-- The words `beg … beg + n - 1` of a region. -/
def Mem.words (m : Mem) (b c beg n : Nat) : List Nat := (List.range n).map fun i => m.slot b c (beg + i)

/-! ## Restartable sequences -/

/-- `Push`. -/
def stepPush (w : W) (i : Nat) (th : Thread) : PC → Option (W × Out)
  | .push0 k o =>
    match th.ptr with
    | .reg b c => some (w.goto i th (.push1 k o b c), .tau)
    | .mask => none
    | .none => some ({ w.goto i th .idle with held := (k, o) :: w.held }, .pushed false)
  | .push1 k o b c => some (w.goto i th (.push2 k o b c (w.mem.hdr b c k).cur), .tau)
  | .push2 k o b c cur =>
    if (w.mem.hdr b c k).fin ≤ cur then
      some ({ w.goto i th .idle with held := (k, o) :: w.held }, .pushed false)
    else some (w.goto i th (.push3 k o b c cur), .tau)
  | .push3 k o b c cur => some ({ w.goto i th (.push4 k o b c cur) with mem := w.mem.setS b c cur o }, .tau)
  | .push4 k _ b c cur =>
    some ({ w.goto i th .idle with mem := w.mem.setH b c k ⟨(cur + 1) % 65536, (w.mem.hdr b c k).fin⟩ },
      .pushed true)
  | _ => none

/-- `Pop`.  The word below the top is loaded as a prefetch target and asserted not to be null
(percpu_tcmalloc.h:893-894). -/
def stepPop (w : W) (i : Nat) (th : Thread) : PC → Option (W × Out)
  | .pop0 k =>
    match th.ptr with
    | .reg b c => some (w.goto i th (.pop1 k b c), .tau)
    | .mask => none
    | .none => some (w.goto i th .idle, .popped none)
  | .pop1 k b c => some (w.goto i th (.pop2 k b c (w.mem.hdr b c k).cur), .tau)
  | .pop2 k b c cur =>
    if cur = 0 then none
    else if w.mem.slot b c (cur - 1) % 2 = 1 then some (w.goto i th .idle, .popped none)
    else some (w.goto i th (.pop3 k b c cur (w.mem.slot b c (cur - 1))), .tau)
  | .pop3 k b c cur res =>
    if cur < 2 ∨ w.mem.slot b c (cur - 2) = 0 then none
    else some (w.goto i th (.pop4 k b c cur res), .tau)
  | .pop4 k b c cur res =>
    if res = 0 then none
    else
      some ({ w.goto i th .idle with mem := w.mem.setH b c k ⟨cur - 1, (w.mem.hdr b c k).fin⟩
                                     held := (k, res) :: w.held }, .popped (some res))
  | _ => none

/-- `PushBatch`: items are taken from the end of the batch. -/
def stepPushB (w : W) (i : Nat) (th : Thread) : PC → Option (W × Out)
  | .pushB0 k l =>
    match th.ptr with
    | .reg b c => some (w.goto i th (.pushB1 k l b c), .tau)
    | .mask => none
    | .none => some ({ w.goto i th .idle with held := l.map (fun o => (k, o)) ++ w.held }, .pushedB 0)
  | .pushB1 k l b c => some (w.goto i th (.pushB2 k l b c (w.mem.hdr b c k).cur), .tau)
  | .pushB2 k l b c cur =>
    if (w.mem.hdr b c k).fin ≤ cur then
      some ({ w.goto i th .idle with held := l.map (fun o => (k, o)) ++ w.held }, .pushedB 0)
    else some (w.goto i th (.pushB3 k l b c cur (min l.length ((w.mem.hdr b c k).fin - cur)) 0), .tau)
  | .pushB3 k l b c cur m j =>
    if j < m then
      match l[l.length - 1 - j]? with
      | none => none
      | some o =>
        some ({ w.goto i th (.pushB3 k l b c cur m (j + 1)) with mem := w.mem.setS b c (cur + j) o }, .tau)
    else
      some ({ w.goto i th .idle with mem := w.mem.setH b c k ⟨(cur + m) % 65536, (w.mem.hdr b c k).fin⟩
                                     held := (l.take (l.length - m)).map (fun o => (k, o)) ++ w.held },
        .pushedB m)
  | _ => none

/-- `PopBatch`: loads from the top; the begin of the class is read from `begins_`. -/
def stepPopB (w : W) (i : Nat) (th : Thread) : PC → Option (W × Out)
  | .popB0 k n =>
    match th.ptr with
    | .reg b c => some (w.goto i th (.popB1 k n b c), .tau)
    | .mask => none
    | .none => some (w.goto i th .idle, .poppedB [])
  | .popB1 k n b c => some (w.goto i th (.popB2 k n b c (w.mem.hdr b c k).cur), .tau)
  | .popB2 k n b c cur =>
    if cur ≤ w.begins k then some (w.goto i th .idle, .poppedB [])
    else some (w.goto i th (.popB3 k n b c cur (min n (cur - w.begins k)) []), .tau)
  | .popB3 k n b c cur m got =>
    if got.length < m then
      if cur < got.length + 1 then none
      else some (w.goto i th (.popB3 k n b c cur m (got ++ [w.mem.slot b c (cur - 1 - got.length)])), .tau)
    else
      some ({ w.goto i th .idle with mem := w.mem.setH b c k ⟨cur - m, (w.mem.hdr b c k).fin⟩
                                     held := got.map (fun o => (k, o)) ++ w.held }, .poppedB got)
  | _ => none

/-- The maximal capacities may be changing: `UpdateMaxCapacities` stores them after its fence
(percpu_tcmalloc.h:1345-1350), before the switch. -/
def W.capsStable (w : W) : Bool :=
  match w.rs with
  | some (_, r) => !(r.post.isNone && r.todo == some [])
  | none => true

/-- `Grow`.  The maximal capacity read is arbitrary (`ch.len`) if the slabs pointer read before is no longer
current or the capacities may be changing. -/
def stepGrow (w : W) (i : Nat) (th : Thread) (ch : Ch) : PC → Option (W × Out)
  | .grow0 k len => some (w.goto i th (.grow1 k len w.slabs), .tau)
  | .grow1 k len b =>
    some (w.goto i th (.grow2 k len b (if b = w.slabs ∧ w.capsStable then w.caps k else ch.len)), .tau)
  | .grow2 k len b mx => some (w.goto i th (.grow3 k len b mx (w.mem.hdr b th.ret k)), .tau)
  | .grow3 k len b mx h =>
    -- `have = max_cap - (end - begin) ≤ 0` returns 0
    if mx + w.begins k ≤ h.fin then some (w.goto i th .idle, .grew 0)
    else
      let n := min (len % 65536) ((mx + w.begins k - h.fin) % 65536)
      some (w.goto i th (.grow4 k len b ⟨h.cur, (h.fin + n) % 65536⟩ n), .tau)
  | .grow4 k len b h n =>
    match th.ptr with
    | .none => some (w.goto i th .idle, .grew 0)
    | _ => some (w.goto i th (.grow5 k len b h n), .tau)
  | .grow5 k _ b h n => some ({ w.goto i th .idle with mem := w.mem.setH b th.ret k h }, .grew n)
  | _ => none

/-! ## Caching the slab pointer -/

/-- No per-CPU lock is held by an operation on all CPUs (cpu_cache.h:1463, 1662, 2513). -/
def W.allFree (w : W) : Bool :=
  match w.rs with
  | none => true
  | some (_, r) => match r.post with
    | some p => p.unlocked
    | none => false

/-- `CacheCpuSlabSlow` and `CpuCache::CacheCpuSlab`. -/
def stepCache (n : Nat) (w : W) (i : Nat) (th : Thread) (cpu : Nat) : PC → Option (W × Out)
  | .cache1 => some (w.set i { th with ptr := .mask, pc := .cache2 }, .tau)
  | .cache2 => if cpu < n then some (w.set i { th with vcpu := cpu, pc := .cache3 cpu }, .tau) else none
  | .cache3 v => some (w.goto i th (.cache4 v w.slabs), .tau)
  | .cache4 v b =>
    match th.ptr with
    | .none => some (w.goto i th .cache1, .tau)
    | _ => some (w.goto i th (.cache5 v b), .tau)
  | .cache5 v b => some (w.set i { th with ptr := .reg b v, pc := .cache6 v b }, .tau)
  | .cache6 v b =>
    if w.stopped v then some (w.set i { th with ptr := .none, pc := .idle }, .cached none)
    else some (w.goto i th (.cache7 v b), .tau)
  | .cache7 v b =>
    if w.slabs = b then some (w.set i { th with ret := v, pc := .cache8 v }, .tau)
    else some (w.goto i th .cache1, .tau)
  | .cache8 v =>
    if w.populated v then some (w.goto i th .idle, .cached (some th.ret))
    else some (w.goto i th (.cache9 v), .tau)
  | .cache9 v =>
    if w.rem v = none ∧ w.allFree then
      some ({ w.goto i th (.remote v) with rem := fun c => if c = v then some (i, .locked true) else w.rem c },
        .tau)
    else some (w, .tau)
  | _ => none

/-! ## Operations on one locked CPU -/

def W.setRem (w : W) (i c : Nat) (st : RStage) : W :=
  { w with rem := fun c' => if c' = c then some (i, st) else w.rem c' }

/-- Unlock: the operation is over. -/
def W.unlock (w : W) (i : Nat) (th : Thread) (c : Nat) : W :=
  { w.goto i th .idle with rem := fun c' => if c' = c then none else w.rem c' }

def W.setStopped (w : W) (c : Nat) (v : Bool) : W :=
  { w with stopped := fun c' => if c' = c then v else w.stopped c' }

/-- The part of an operation on one CPU before the CPU is stopped and fenced, and after. -/
def stepStop (cfg : Cfg) (w : W) (i : Nat) (th : Thread) (cpu c : Nat) (ch : Ch) : RStage → Option (W × Out)
  | .locked pop =>
    -- `Populate` returns if populated (cpu_cache.h:1382); `Drain` if not (2268)
    if w.populated c = pop then some (w.unlock i th c, if pop then .cached (some th.ret) else .tau)
    else if w.stopped c then none
    else some ((w.setStopped c true).setRem i c (.stopping pop), .tau)
  | .stopping pop =>
    -- `FenceCpu`, percpu.cc:372-401
    if cpu = c then some ((w.set i { th with vcpu := cpu }).setRem i c (.ready pop), .tau)
    else if cfg.virt then
      some ((w.set i { th with vcpu := cpu, ptr := .none }).setRem i c (.fencing pop (List.range cfg.n)), .tau)
    else some (((w.set i { th with vcpu := cpu }).fence i c).setRem i c (.ready pop), .tau)
  | .fencing pop todo =>
    match todo[ch.k]? with
    | some c' => some ((w.fence i c').setRem i c (.fencing pop (todo.eraseIdx ch.k)), .tau)
    | none => if todo = [] then some (w.setRem i c (.ready pop), .tau) else some (w, .tau)
  | .inited => if w.stopped c then some ((w.setStopped c false).setRem i c .started, .tau) else none
  | .started =>
    some ({ w.setRem i c (.fin true) with populated := fun c' => if c' = c then true else w.populated c' }, .tau)
  | .fin pop => some (w.unlock i th c, if pop then .cached (some th.ret) else .tau)
  | _ => none

/-- `InitCpu` (percpu_tcmalloc.h:1144-1149), `DrainCpu`, `ShrinkOtherCache`, `GrowOtherCache` on a stopped CPU. -/
def stepBody (cfg : Cfg) (w : W) (i : Nat) (c : Nat) (ch : Ch) : RStage → Option (W × Out)
  | .ready true =>
    match initCpu cfg.nc w.caps w.lim (w.stopped c) w.mem w.slabs c with
    | some m => some ({ w.setRem i c .inited with mem := m }, .tau)
    | none => none
  | .ready false =>
    match ch.op with
    | 0 => if w.stopped c then some ((w.setStopped c false).setRem i c (.fin false), .tau) else none
    | 1 => some (w.setRem i c (.dr1 1), .tau)
    | 2 => some (w.setRem i c (.sh1 ch.k ch.len), .tau)
    | _ => some (w.setRem i c (.go1 ch.k ch.len), .tau)
  | .dr1 k =>
    if cfg.nc ≤ k then some (w.setRem i c (.ready false), .tau)
    else if ¬ w.stopped c then none
    else if (w.mem.hdr w.slabs c k).cur = 0 then some (w.setRem i c (.dr1 (k + 1)), .tau)
    else some (w.setRem i c (.dr2 k (w.begins k) (w.mem.hdr w.slabs c k)), .tau)
  | .dr2 k beg h =>
    -- `hdr.current - begin` and `hdr.end - begin` must not wrap
    if h.cur < beg ∨ h.fin < beg then none
    else
      let l := w.mem.words w.slabs c beg (h.cur - beg)
      some ({ w.setRem i c (.dr3 k beg) with held := l.map (fun o => (k, o)) ++ w.held },
        .handed c k l (h.fin - beg))
  | .dr3 k beg => some ({ w.setRem i c (.dr1 (k + 1)) with mem := w.mem.setH w.slabs c k ⟨beg, beg⟩ }, .tau)
  | .sh1 k len =>
    if ¬ w.stopped c then none
    else some (w.setRem i c (.sh2 k len (w.begins k) (w.mem.hdr w.slabs c k)), .tau)
  | .sh2 k len beg h =>
    if h.fin < h.cur ∨ h.cur < beg then none
    else
      let unused := h.fin - h.cur
      let pop := if unused < len ∧ h.cur ≠ beg then min ((len - unused) % 65536) (h.cur - beg) else 0
      let l := w.mem.words w.slabs c (h.cur - pop) pop
      let n := min (len % 65536) (h.fin - (h.cur - pop))
      some ({ w.setRem i c (.sh3 k len n ⟨h.cur - pop, h.fin - n⟩) with held := l.map (fun o => (k, o)) ++ w.held },
        .handed c k l 0)
  | .sh3 k _ n h => some ({ w.setRem i c (.ready false) with mem := w.mem.setH w.slabs c k h }, .shrunk c k n)
  | .go1 k len =>
    if ¬ w.stopped c then none
    else
      let h := w.mem.hdr w.slabs c k
      if w.caps k + w.begins k < h.fin then none
      else
        let n := min (len % 65536) ((w.caps k + w.begins k - h.fin) % 65536)
        some (w.setRem i c (.go2 k len n ⟨h.cur, (h.fin + n) % 65536⟩), .tau)
  | .go2 k _ n h => some ({ w.setRem i c (.ready false) with mem := w.mem.setH w.slabs c k h }, .grewOther c k n)
  | _ => none

/-! ## Operations on all CPUs -/

def W.setRS (w : W) (i : Nat) (r : RS) : W := { w with rs := some (i, r) }

/-- `CpuIsDrained`, percpu_tcmalloc.h:1280-1290. -/
def W.drained (nc : Nat) (w : W) (c : Nat) : Bool :=
  (List.range nc).all fun k =>
    k = 0 || decide ((w.mem.hdr w.slabs c k).fin = 0 ∨ (w.mem.hdr w.slabs c k).fin = w.begins k)

/-- `MadviseAwaySlabs` (cpu_cache.h:1618-1651) on the regions of slab area `b` for the CPUs in `p`: each cell may
become zero or keep its value (the call may fail). -/
def Mem.zap (m : Mem) (b : Nat) (p : Nat → Bool) (zh zs : Nat → Nat → Bool) : Mem where
  hdr := fun b' c k => if b' = b ∧ p c ∧ zh c k then ⟨0, 0⟩ else m.hdr b' c k
  slot := fun b' c i => if b' = b ∧ p c ∧ zs c i then 0 else m.slot b' c i

/-- Phases 1 and 2 of `ResizeSlabs` and phases 1 to 3 of `UpdateMaxCapacities`, in any order the checks permit
(the two functions initialise the new regions before and after the fence), and the same for
`ReleaseSlabMetadataForDrainedCpus`.  `ch.op`: 0 stop the next CPU, 1 initialise the next CPU's new region, 2 start
the fence, 3 one CPU is fenced, otherwise the switch. -/
def stepPre (cfg : Cfg) (w : W) (i : Nat) (th : Thread) (r : RS) (ch : Ch) : Option (W × Out) :=
  match ch.op with
  | 0 =>
    if r.stopd < cfg.n then
      if w.stopped r.stopd then none
      else some ((w.setStopped r.stopd true).setRS i { r with stopd := r.stopd + 1 }, .tau)
    else some (w, .tau)
  | 1 =>
    match r.plan with
    | some (nb, ncaps, lim) =>
      if r.initd < r.stopd then
        if w.populated r.initd then
          match initCpu cfg.nc ncaps lim (w.stopped r.initd) w.mem nb r.initd with
          | some m => some ({ w.setRS i { r with initd := r.initd + 1 } with mem := m }, .tau)
          | none => none
        else some (w.setRS i { r with initd := r.initd + 1 }, .tau)
      else some (w, .tau)
    | none => some (w, .tau)
  | 2 =>
    -- `FenceAllCpus`, percpu.cc:403-428, uncaches the caller's pointer first
    if r.stopd = cfg.n ∧ r.todo = none then
      some ((w.set i { th with ptr := .none }).setRS i { r with todo := some (List.range cfg.n) }, .tau)
    else some (w, .tau)
  | 3 =>
    match r.todo with
    | some todo =>
      match todo[ch.k]? with
      | some c => some ((w.fence i c).setRS i { r with todo := some (todo.eraseIdx ch.k) }, .tau)
      | none => some (w, .tau)
    | none => some (w, .tau)
  | _ =>
    if r.todo = some [] then
      match r.plan with
      | some (nb, ncaps, lim) =>
        if r.initd = cfg.n then
          match initSlabs cfg.nc ncaps lim with
          | some bg =>
            some ({ w with slabs := nb
                           begins := bg
                           caps := ncaps
                           lim := lim
                           rs := some (i, { r with post := some ⟨0, some (w.slabs, w.begins), 0, 1, .load, false⟩ }) },
              .tau)
          | none => none
        else some (w, .tau)
      | none =>
        -- only regions whose populated CPUs are drained are chosen (percpu_tcmalloc.h:1550-1573)
        if ((List.range cfg.n).all fun c => !(ch.set c && w.populated c) || w.drained cfg.nc c) then
          some ({ w with mem := w.mem.zap w.slabs ch.set ch.zh ch.zs
                         populated := fun c => w.populated c && !ch.set c
                         rs := some (i, { r with post := some ⟨0, none, 0, 1, .load, false⟩ }) }, .tau)
        else some (w, .tau)
    else some (w, .tau)

/-- Restart, drain of the old slabs, unlock, and `MadviseAwaySlabs`. -/
def stepPost (cfg : Cfg) (w : W) (i : Nat) (th : Thread) (r : RS) (p : Post) (ch : Ch) : Option (W × Out) :=
  if p.started < cfg.n then
    some ((w.setStopped p.started false).setRS i { r with post := some { p with started := p.started + 1 } }, .tau)
  else
    match p.old with
    | none =>
      -- unlock; the release has nothing left to do
      some ({ w.goto i th .idle with rs := none }, .tau)
    | some (ob, obeg) =>
      if p.oc < cfg.n then
        if ¬ w.populated p.oc then
          some (w.setRS i { r with post := some { p with oc := p.oc + 1, ok := 1, st := .load } }, .tau)
        else if cfg.nc ≤ p.ok then
          some (w.setRS i { r with post := some { p with oc := p.oc + 1, ok := 1, st := .load } }, .tau)
        else
          match p.st with
          | .load =>
            if (w.mem.hdr ob p.oc p.ok).cur = 0 then
              some (w.setRS i { r with post := some { p with ok := p.ok + 1 } }, .tau)
            else some (w.setRS i { r with post := some { p with st := .hand (w.mem.hdr ob p.oc p.ok) } }, .tau)
          | .hand h =>
            if h.cur < obeg p.ok ∨ h.fin < obeg p.ok then none
            else
              let l := w.mem.words ob p.oc (obeg p.ok) (h.cur - obeg p.ok)
              some ({ w.setRS i { r with post := some { p with st := .store } } with
                        held := l.map (fun o => (p.ok, o)) ++ w.held },
                .handed p.oc p.ok l (h.fin - obeg p.ok))
          | .store =>
            some ({ w.setRS i { r with post := some { p with ok := p.ok + 1, st := .load } } with
                      mem := w.mem.setH ob p.oc p.ok ⟨obeg p.ok, obeg p.ok⟩ }, .tau)
      else if p.unlocked then
        some ({ w.goto i th .idle with mem := w.mem.zap ob (fun _ => true) ch.zh ch.zs, rs := none }, .tau)
      else some (w.setRS i { r with post := some { p with unlocked := true } }, .tau)

/-! ## The machine -/

/-- One step of thread `i`, which runs on CPU `cpu`. -/
def stepThread (cfg : Cfg) (w : W) (i : Nat) (th : Thread) (cpu : Nat) (ch : Ch) : Option (W × Out) :=
  match th.pc with
  | .idle => some (w, .tau)
  | .push0 .. | .push1 .. | .push2 .. | .push3 .. | .push4 .. => stepPush w i th th.pc
  | .pop0 .. | .pop1 .. | .pop2 .. | .pop3 .. | .pop4 .. => stepPop w i th th.pc
  | .pushB0 .. | .pushB1 .. | .pushB2 .. | .pushB3 .. => stepPushB w i th th.pc
  | .popB0 .. | .popB1 .. | .popB2 .. | .popB3 .. => stepPopB w i th th.pc
  | .grow0 .. | .grow1 .. | .grow2 .. | .grow3 .. | .grow4 .. | .grow5 .. => stepGrow w i th ch th.pc
  | .remote c =>
    match w.rem c with
    | some (_, st) =>
      match st with
      | .locked .. | .stopping .. | .fencing .. | .inited | .started | .fin .. =>
        stepStop cfg w i th cpu c ch st
      | _ => stepBody cfg w i c ch st
    | none => none
  | .all =>
    match w.rs with
    | some (_, r) =>
      match r.post with
      | none => stepPre cfg w i th r ch
      | some p => stepPost cfg w i th r p ch
    | none => none
  | _ => stepCache cfg.n w i th cpu th.pc

/-- Calls a thread can make. -/
inductive Op where
  | push (k o : Nat)
  | pop (k : Nat)
  | pushB (k : Nat) (l : List Nat)
  | popB (k n : Nat)
  | grow (k len : Nat)
  | cache
  | uncache
  /-- `Drain`, `ResizeCpuSizeClasses`, `StealFromOtherCache` on CPU `c`: starts with the lock -/
  | remote (c : Nat)
  /-- `ResizeSlabs`/`UpdateMaxCapacities` -/
  | resize (nb : Nat) (ncaps : Nat → Nat) (lim : Nat)
  /-- `ReleaseSlabMetadataForDrainedCpus` -/
  | release

def eraseAll (held : List (Nat × Nat)) : List (Nat × Nat) → List (Nat × Nat)
  | [] => held
  | a :: l => eraseAll (held.erase a) l

/-- The start of a call by an idle thread. -/
def call (cfg : Cfg) (w : W) (i : Nat) (th : Thread) : Op → W × Out
  | .push k o => ({ w.goto i th (.push0 k o) with held := w.held.erase (k, o) }, .tau)
  | .pop k => (w.goto i th (.pop0 k), .tau)
  | .pushB k l => ({ w.goto i th (.pushB0 k l) with held := eraseAll w.held (l.map fun o => (k, o)) }, .tau)
  | .popB k n => (w.goto i th (.popB0 k n), .tau)
  | .grow k len => (w.goto i th (.grow0 k len), .tau)
  | .cache =>
    -- `CacheCpuSlab`, percpu_tcmalloc.h:1023-1031
    match th.ptr with
    | .none => (w.goto i th .cache1, .tau)
    | _ => (w.set i { th with ret := th.vcpu }, .cached (some th.vcpu))
  | .uncache => (w.set i { th with ptr := .none }, .tau)
  | .remote c => ((w.goto i th (.remote c)).setRem i c (.locked false), .tau)
  | .resize nb ncaps lim => ((w.goto i th .all).setRS i ⟨some (nb, ncaps, lim), 0, 0, none, none⟩, .tau)
  | .release => ((w.goto i th .all).setRS i ⟨none, 0, cfg.n, none, none⟩, .tau)

/-- Events: calls, steps of threads, the scheduler, and objects coming from or going to the lower layers. -/
inductive Ev where
  | call (i : Nat) (op : Op)
  | act (i : Nat) (ch : Ch)
  | schedOut (i : Nat)
  | schedIn (i c : Nat)
  | signal (i : Nat)
  | give (k o : Nat)
  | take (k o : Nat)

/-- One event. -/
def step (cfg : Cfg) (w : W) : Ev → Option (W × Out)
  | .call i op =>
    match w.thr[i]? with
    | some th => some (call cfg w i th op)
    | none => none
  | .act i ch =>
    match w.thr[i]? with
    | some th =>
      match th.cpu with
      | some cpu => stepThread cfg w i th cpu ch
      | none => none
    | none => none
  | .schedOut i =>
    match w.thr[i]? with
    | some th => some (w.set i { th.fix with cpu := none }, .tau)
    | none => none
  | .schedIn i c =>
    match w.thr[i]? with
    | some th => some (w.set i { th with cpu := some c }, .tau)
    | none => none
  | .signal i =>
    match w.thr[i]? with
    | some th => some (w.set i th.fix, .tau)
    | none => none
  | .give k o => some ({ w with held := (k, o) :: w.held }, .tau)
  | .take k o => some ({ w with held := w.held.erase (k, o) }, .tau)

/-- `Init`, percpu_tcmalloc.h:1098-1116, for slabs `b` with maximal capacities `caps`: nothing populated, no
thread has a cached pointer, memory arbitrary. -/
def W.init (cfg : Cfg) (m : Mem) (b : Nat) (caps : Nat → Nat) (lim : Nat) (threads : Nat) : Option W :=
  match initSlabs cfg.nc caps lim with
  | some bg => some
      { mem := m
        begins := bg
        caps := caps
        lim := lim
        slabs := b
        stopped := fun _ => false
        populated := fun _ => false
        rem := fun _ => none
        rs := none
        thr := List.replicate threads ⟨none, .none, 0, 0, .idle⟩
        held := [] }
  | none => none

end Verif.Slab
