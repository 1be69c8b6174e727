/-!
Model of the per-thread caches, /repo/tcmalloc/thread_cache.h and thread_cache.cc: allocation, deallocation, fetching
from and releasing to the transfer cache, scavenging, the limits of the caches and the pool of unclaimed bytes, creation
and destruction of caches.

Granularity.  A cache is used by the thread that owns it; only its limit `max_size_` is written by other threads, always
under `threadcache_lock_`.  A step is a piece of code of one thread that calls the transfer cache or takes the lock or
reads `max_size_` at most once.  The steps of all threads interleave arbitrarily.  What the transfer cache answers is
arbitrary (event `fetched`), restricted by `Pre` to what `Verif.TransferCache` guarantees.

Simplifications: a free list is the list of its objects (`Verif.LinkedList` proves that the pointer code of
linked_list.h does this); the list of all caches is a list (next_ and prev_ pointers not modelled); the registration
with pthreads (`in_setspecific_`, `tsd_inited_`) is not modelled; `size_` does not overflow (the objects are disjoint
memory).  `none` stands for a failed assertion, a null or dangling pointer or an arithmetic wrap-around.
-/
namespace Verif.ThreadCache

/-- common.h:208. -/
def kMaxObjectsToMove : Nat := 128
/-- common.h:220. -/
def kMaxOverages : Nat := 3
/-- common.h:227. -/
def kMaxDynamicFreeListLength : Nat := 8192

/-- `kNumClasses`, `class_to_size`, `num_objects_to_move`; `kMinThreadCacheSize`, `kMaxThreadCacheSize`,
`kDefaultOverallThreadCacheSize`, `kStealAmount` (common.h:126-163). -/
structure Cfg where
  nc : Nat
  size : Nat → Nat
  batch : Nat → Nat
  kMin : Nat
  kMax : Nat
  kDefault : Nat
  kSteal : Nat

/-- `FreeList`, thread_cache.h:84-128. -/
structure FL where
  objs : List Nat
  low : Nat
  maxLen : Nat
  over : Nat
deriving DecidableEq, Repr

/-- `FreeList::Init`, thread_cache.h:95-99. -/
def FL.new : FL := ⟨[], 0, 1, 0⟩

/-- What `ReleaseToTransferCache` returns to. -/
inductive Ret where
  | tooLong
  | scav
  | clean
deriving DecidableEq, Repr

/-- What the owner of a cache is doing. -/
inductive St where
  | idle
  /-- in `FetchFromTransferCache`: waiting for at most `n` objects of class `k` -/
  | fetch (k n : Nat)
  /-- `DeallocateSlow`: at its start; about to compare `size_` and `max_size_` -/
  | slow (k : Nat)
  | check
  /-- `ReleaseToTransferCache`: `n` of `m` objects of class `k` still to be released -/
  | rel (k n m : Nat) (ret : Ret)
  /-- `Scavenge`: at class `k`; about to call `IncreaseCacheLimit` -/
  | scav (k : Nat)
  | incr
  /-- `DeleteCache`: `Cleanup` at class `k`; about to take the lock -/
  | clean (k : Nat)
  | unlink
deriving DecidableEq, Repr

/-- A thread cache: its address, its free lists, `size_`, `max_size_`, what its owner is doing. -/
structure Heap where
  id : Nat
  list : Nat → FL
  size : Nat
  max : Nat
  st : St

/-- The state: `thread_heaps_`, `next_memory_steal_`, `unclaimed_cache_space_`, `overall_thread_cache_size_`,
`per_thread_cache_size_`; and the objects with the user. -/
structure W where
  heaps : List Heap
  next : Option Nat
  unclaimed : Int
  overall : Nat
  per : Nat
  user : List (Nat × Nat)

/-- What a step shows. -/
inductive Out where
  | tau
  | allocated (k : Nat) (o : Option Nat)
  | freed
  /-- `InsertRange` of the transfer cache -/
  | toBacking (k : Nat) (l : List Nat)
  | created
  | deleted
  | resized
deriving DecidableEq, Repr

/-! ## Free lists -/

/-- `FreeList::TryPop`, thread_cache.h:113-119. -/
def FL.tryPop (f : FL) : FL × Option Nat :=
  match f.objs with
  | [] => (f, none)
  | o :: r => ({ f with objs := r, low := if r.length < f.low then r.length else f.low }, some o)

/-- `LinkedList::Push`. -/
def FL.push (f : FL) (o : Nat) : FL := { f with objs := o :: f.objs }

/-- `FreeList::PopBatch`, thread_cache.h:121-124; more than the list has: a null pointer. -/
def FL.popBatch (f : FL) (n : Nat) : Option (FL × List Nat) :=
  if f.objs.length < n then none
  else
    let r := f.objs.drop n
    some ({ f with objs := r, low := if r.length < f.low then r.length else f.low }, f.objs.take n)

/-- The change of `max_length_` in `FetchFromTransferCache`, thread_cache.cc:111-126. -/
def FL.fetched (f : FL) (batch : Nat) : Option FL :=
  if f.maxLen < batch then some { f with maxLen := f.maxLen + 1 }
  else if batch = 0 then none
  else
    let n := min (f.maxLen + batch) kMaxDynamicFreeListLength
    some { f with maxLen := n - n % batch }

/-- The changes to the list in `ListTooLong` after the release, thread_cache.cc:139-151. -/
def FL.tooLong (f : FL) (batch : Nat) : FL :=
  if f.maxLen < batch then { f with maxLen := f.maxLen + 1 }
  else if batch < f.maxLen then
    if kMaxOverages < f.over + 1 then { f with maxLen := f.maxLen - batch, over := 0 }
    else { f with over := f.over + 1 }
  else f

/-- The changes to the list in `Scavenge` after the release, thread_cache.cc:201-208. -/
def FL.scavenged (f : FL) (batch : Nat) : FL :=
  if batch < f.maxLen then { f with maxLen := max (f.maxLen - batch) batch } else f

/-- `clear_lowwatermark`, thread_cache.h:111. -/
def FL.clearLow (f : FL) : FL := { f with low := f.objs.length }

/-! ## Helpers -/

def upd {α : Type} (f : Nat → α) (k : Nat) (v : α) : Nat → α := fun k' => if k' = k then v else f k'

def Heap.setL (h : Heap) (k : Nat) (f : FL) : Heap := { h with list := upd h.list k f }
def Heap.go (h : Heap) (st : St) : Heap := { h with st := st }

/-- The cache with address `id`. -/
def find : List Heap → Nat → Option Heap
  | [], _ => none
  | h :: r, id => if h.id = id then some h else find r id

/-- Replace the cache with the address of `h'`. -/
def put (l : List Heap) (h' : Heap) : List Heap := l.map fun h => if h.id = h'.id then h' else h

/-- `next_` of the cache with address `id`. -/
def after : List Heap → Nat → Option Nat
  | [], _ => none
  | h :: r, id => if h.id = id then (match r with | [] => none | n :: _ => some n.id) else after r id

/-- The sum of the limits. -/
def claimed (l : List Heap) : Nat := (l.map (·.max)).sum

def W.put (w : W) (h : Heap) : W := { w with heaps := ThreadCache.put w.heaps h }

/-! ## Limits -/

/-- Where the loop of `IncreaseCacheLimitLocked` looks next, thread_cache.cc:243-247. -/
def cursor (heaps : List Heap) : Option Nat → Option Nat
  | some c => some c
  | none => heaps.head?.map (·.id)

/-- The loop of `IncreaseCacheLimitLocked`, thread_cache.cc:242-256, on behalf of the cache `self`, `n` iterations: the
caches, `next_memory_steal_` and the bytes taken. -/
def stealLoop (cfg : Cfg) (heaps : List Heap) (self : Nat) : Nat → Option Nat → Option (List Heap × Option Nat × Nat)
  | 0, next => some (heaps, next, 0)
  | n + 1, next =>
    match cursor heaps next with
    -- the assertion on line 245
    | none => none
    | some cur =>
      match find heaps cur with
      | none => none
      | some h =>
        if cur = self ∨ h.max ≤ cfg.kMin then stealLoop cfg heaps self n (after heaps cur)
        else if h.max < cfg.kSteal then none
        else some (put heaps { h with max := h.max - cfg.kSteal }, after heaps cur, cfg.kSteal)

/-- `IncreaseCacheLimitLocked`, thread_cache.cc:230-257: the state, and by how much `max_size_` of `self` grows. -/
def W.increase (cfg : Cfg) (w : W) (self : Nat) : Option (W × Nat) :=
  if 0 < w.unclaimed then some ({ w with unclaimed := w.unclaimed - cfg.kSteal }, cfg.kSteal)
  else
    match stealLoop cfg w.heaps self 10 w.next with
    | none => none
    | some (heaps, next, b) => some ({ w with heaps := heaps, next := next }, b)

/-- The constructor, thread_cache.cc:55-80, and `NewHeap`, 312-328. -/
def W.newHeap (cfg : Cfg) (w : W) (id : Nat) : Option W :=
  match w.increase cfg id with
  | none => none
  | some (w, b) =>
    let ub : Int × Nat := if b = 0 then (w.unclaimed - cfg.kMin, cfg.kMin) else (w.unclaimed, b)
    -- line 68; line 321
    if (b = 0 ∧ 0 ≤ ub.1) ∨ (w.heaps = [] ∧ w.next ≠ none) then none
    else
      some { w with
        unclaimed := ub.1
        next := if w.heaps.isEmpty then some id else w.next
        heaps := ⟨id, fun _ => FL.new, 0, ub.2, .idle⟩ :: w.heaps }

/-- The locked part of `DeleteCache`, thread_cache.cc:373-384. -/
def W.unlink (w : W) (h : Heap) : W :=
  let heaps := w.heaps.filter fun h' => h'.id ≠ h.id
  let next := if w.next = some h.id then after w.heaps h.id else w.next
  { w with
    heaps := heaps
    next := cursor heaps next
    unclaimed := w.unclaimed + h.max }

/-- A `size_t` below 2^64 read as an `int64_t`. -/
def toI64 (n : Nat) : Int := if n < 2 ^ 63 then n else (n : Int) - 2 ^ 64

/-- `set_overall_thread_cache_size`, thread_cache.cc:426-434, and `RecomputePerThreadCacheSize`, 388-413.  The product
with a ratio below one, computed with doubles and truncated, is an arbitrary number not above the old limit.
Simplification: the sum of the limits is below 2^63, so that only the conversion of the overall size matters. -/
def W.resize (cfg : Cfg) (w : W) (n : Nat) (scale : Nat → Nat) : W :=
  let n := if n < cfg.kMin then cfg.kMin else n
  let cnt := if 0 < w.heaps.length then w.heaps.length else 1
  let s := n / cnt
  let s := if s < cfg.kMin then cfg.kMin else s
  let s := if cfg.kMax < s then cfg.kMax else s
  let heaps := if s < max 1 w.per then w.heaps.map fun h => { h with max := min (scale h.id) h.max } else w.heaps
  { w with heaps := heaps, overall := n, unclaimed := toI64 n - claimed heaps, per := s }

/-! ## Steps -/

/-- `Allocate`, thread_cache.h:231-243, up to the call of the transfer cache in `FetchFromTransferCache`
(thread_cache.cc:95-102). -/
def W.allocate (cfg : Cfg) (w : W) (h : Heap) (k : Nat) : Option (W × Out) :=
  match (h.list k).tryPop with
  | (f, some o) =>
    if h.size < cfg.size k then none
    else some ({ w.put { h.setL k f with size := h.size - cfg.size k } with user := (k, o) :: w.user },
      .allocated k (some o))
  | (_, none) =>
    if (h.list k).objs = [] then some (w.put (h.go (.fetch k (min (h.list k).maxLen (cfg.batch k)))), .tau) else none

/-- `FetchFromTransferCache` after `RemoveRange` returned `l`, thread_cache.cc:103-128. -/
def W.fetched (cfg : Cfg) (w : W) (h : Heap) (k : Nat) (l : List Nat) : Option (W × Out) :=
  match l with
  | [] => some (w.put (h.go .idle), .allocated k none)
  | o :: r =>
    match ({ h.list k with objs := r ++ (h.list k).objs } : FL).fetched (cfg.batch k) with
    | none => none
    | some f =>
      some ({ w.put { (h.setL k f).go .idle with size := h.size + cfg.size k * r.length } with
        user := (k, o) :: w.user }, .allocated k (some o))

/-- `Deallocate`, thread_cache.h:245-263. -/
def W.deallocate (cfg : Cfg) (w : W) (h : Heap) (k o : Nat) : W × Out :=
  let f := (h.list k).push o
  let h' : Heap := { h.setL k f with size := h.size + cfg.size k }
  let w' := { w with user := w.user.erase (k, o) }
  if f.maxLen < f.objs.length ∨ h'.max ≤ h'.size then (w'.put (h'.go (.slow k)), .tau)
  else (w'.put h', .freed)

/-- The start of `ReleaseToTransferCache(k, n)`, thread_cache.cc:158-160. -/
def Heap.release (h : Heap) (k n : Nat) (ret : Ret) : Heap :=
  h.go (.rel k (min n (h.list k).objs.length) (min n (h.list k).objs.length) ret)

/-- Where a release returns to: the rest of `ListTooLong`, of an iteration of `Scavenge` or of `Cleanup`. -/
def Heap.ret (cfg : Cfg) (h : Heap) (k : Nat) : Ret → Heap
  | .tooLong => (h.setL k ((h.list k).tooLong (cfg.batch k))).go .check
  | .scav => (h.setL k ((h.list k).scavenged (cfg.batch k)).clearLow).go (.scav (k + 1))
  | .clean => h.go (.clean (k + 1))

/-- One iteration of the loop of `ReleaseToTransferCache` or its end, thread_cache.cc:162-180; asserted bounds of
`InsertRange` (transfer_cache_internals.h). -/
def Heap.relStep (cfg : Cfg) (h : Heap) (k n m : Nat) (ret : Ret) : Option (Heap × List Nat) :=
  match (h.list k).popBatch (min n (cfg.batch k)) with
  | none => none
  | some (f, l) =>
    if l = [] ∨ kMaxObjectsToMove < l.length then none
    else if cfg.batch k < n then some ((h.setL k f).go (.rel k (n - cfg.batch k) m ret), l)
    else if h.size < m * cfg.size k then none
    else some (Heap.ret cfg { h.setL k f with size := h.size - m * cfg.size k } k ret, l)

/-- One step of the owner of `h`. -/
def stepH (cfg : Cfg) (w : W) (h : Heap) : Option (W × Out) :=
  match h.st with
  | .idle | .fetch .. => some (w, .tau)
  -- `DeallocateSlow`, thread_cache.cc:216-223; `ListTooLong`, 130-132
  | .slow k =>
    if (h.list k).maxLen < (h.list k).objs.length then some (w.put (h.release k (cfg.batch k) .tooLong), .tau)
    else some (w.put (h.go .check), .tau)
  | .check => if h.max ≤ h.size then some (w.put (h.go (.scav 0)), .tau) else some (w.put (h.go .idle), .freed)
  | .rel k n m ret => (h.relStep cfg k n m ret).map fun x => (w.put x.1, .toBacking k x.2)
  -- `Scavenge`, thread_cache.cc:183-214
  | .scav k =>
    if cfg.nc ≤ k then some (w.put (h.go .incr), .tau)
    else if 0 < (h.list k).low then
      some (w.put (h.release k (if 1 < (h.list k).low then (h.list k).low / 2 else 1) .scav), .tau)
    else some (w.put ((h.setL k (h.list k).clearLow).go (.scav (k + 1))), .tau)
  -- `IncreaseCacheLimit`, thread_cache.cc:225-228
  | .incr =>
    match w.increase cfg h.id with
    | none => none
    | some (w, b) => some (w.put { h.go .idle with max := h.max + b }, .freed)
  -- `Cleanup`, thread_cache.cc:82-90
  | .clean k =>
    if cfg.nc ≤ k then some (w.put (h.go .unlink), .tau)
    else if (h.list k).objs = [] then some (w.put (h.go (.clean (k + 1))), .tau)
    else some (w.put (h.release k (h.list k).objs.length .clean), .tau)
  | .unlink => some (w.unlink h, .deleted)

/-- Events: a thread gets a cache (`NewHeap`), uses it, goes on, gets an answer of the transfer cache, gives its cache up
(`BecomeIdle`, `DestroyThreadCache`); a thread without a cache frees an object; `SetMaxTotalThreadCacheBytes`. -/
inductive Ev where
  | create (id : Nat)
  | malloc (id k : Nat)
  | free (id k o : Nat)
  | act (id : Nat)
  | fetched (id : Nat) (l : List Nat)
  | delete (id : Nat)
  | direct (k o : Nat)
  | resize (n : Nat) (scale : Nat → Nat)

/-- One event. -/
def step (cfg : Cfg) (w : W) : Ev → Option (W × Out)
  | .create id => (w.newHeap cfg id).map fun w => (w, .created)
  | .malloc id k => (find w.heaps id).bind fun h => w.allocate cfg h k
  | .free id k o => (find w.heaps id).map fun h => w.deallocate cfg h k o
  | .act id => (find w.heaps id).bind fun h => stepH cfg w h
  | .fetched id l =>
    match find w.heaps id with
    | some h =>
      match h.st with
      | .fetch k _ => w.fetched cfg h k l
      | _ => none
    | none => none
  | .delete id => (find w.heaps id).map fun h => (w.put (h.go (.clean 0)), .tau)
  -- `FreeWithHooksOrPerThread`, tcmalloc.cc:586-591
  | .direct k o => some ({ w with user := w.user.erase (k, o) }, .toBacking k [o])
  | .resize n scale => some (w.resize cfg n scale, .resized)

/-- The initial state, thread_cache.cc:42-49. -/
def W.init (cfg : Cfg) : W := ⟨[], none, cfg.kDefault, cfg.kDefault, cfg.kMax, []⟩

/-- `GetStats`, thread_cache.cc:410-424: the total of `size_`, and the number of objects of a class. -/
def W.stats (w : W) : Nat × (Nat → Nat) :=
  ((w.heaps.map (·.size)).sum, fun k => (w.heaps.map fun h => (h.list k).objs.length).sum)

end Verif.ThreadCache
