import Verif.PageAllocator.Heap
/-!
# The page allocator's limits and releases

Models `PageAllocator::ReleaseAtLeastNPages`, `ShrinkHardBy`, `ShrinkToUsageLimit`, `set_limit` (page_allocator.h,
page_allocator.cc) and `ConstantRatePageAllocatorReleaser::Release` (static_vars.h:306-352).

The heaps are reached through an environment `Env`: a call of a heap changes the whole world in any way, because the heap
drops `pageheap_lock` while it talks to the kernel and other threads may run, including ones that change the limits or are
in the same functions.  `World` below is the environment made of page heaps of `Verif.PageHeap`, with nothing else
running.  Logging and the hooks are left out.
-/
namespace Verif.PageAllocator
open Verif.PageHeap

/-- `std::numeric_limits<size_t>::max()`: no limit. -/
def sizeMax : Nat := 2 ^ 64 - 1

/-- `LimitKind`, page_allocator.h:126. -/
inductive Kind where
  | soft | hard
  deriving Repr, DecidableEq

/-- The heaps, page_allocator.h:215-217. -/
inductive Heap where
  | cold | normal (i : Nat) | sampled (i : Nat)
  deriving Repr, DecidableEq

/-- What is fixed when the process starts: `has_cold_impl_`, `active_partitions()`, `sampled_partition_active_`,
`kPageSize`. -/
structure Cfg where
  hasCold : Bool
  parts : Nat
  sampled2 : Bool
  pageSize : Nat

/-- `limits_`, `limit_hits_`, `successful_shrinks_after_limit_hit_`, `peak_backed_bytes_`,
`peak_sampled_application_bytes_`, page_allocator.h:222-243. -/
structure Lim where
  soft : Nat
  hard : Nat
  hitsSoft : Nat
  hitsHard : Nat
  okSoft : Nat
  okHard : Nat
  peak : Nat
  peakApp : Nat
  deriving Repr, DecidableEq

def Lim.init : Lim := ⟨sizeMax, sizeMax, 0, 0, 0, 0, 0, 0⟩

/-- The world around the page allocator.  `usage` is `system_bytes - unmapped_bytes + metadata_bytes()`; `app` is
`sampled_objects_size_`; `rel` and `brk` are `ReleaseAtLeastNPages` and `ReleaseAtLeastNPagesBreakingHugepages` of a
heap. -/
structure Env (W : Type) where
  st : W → Lim
  put : W → Lim → W
  usage : W → Nat
  app : W → Nat
  rel : W → Heap → Nat → Option (W × Nat)
  brk : W → Heap → Nat → Option (W × Nat)

/-- The limits are a field of the world. -/
structure Env.Lawful {W : Type} (E : Env W) : Prop where
  st_put : ∀ w l, E.st (E.put w l) = l
  put_put : ∀ w l l', E.put (E.put w l) l' = E.put w l'
  put_st : ∀ w, E.put w (E.st w) = w
  usage_put : ∀ w l, E.usage (E.put w l) = E.usage w
  app_put : ∀ w l, E.app (E.put w l) = E.app w

/-- A call of a heap: which heap, may it break hugepages, how many pages were asked for and how many reported. -/
structure Ask where
  heap : Heap
  breaking : Bool
  n : Nat
  got : Nat
  deriving Repr, DecidableEq

/-- The order in which the heaps are asked: page_allocator.h:367-390, page_allocator.cc:181-206. -/
def order (c : Cfg) : List Heap :=
  (if c.hasCold then [Heap.cold] else []) ++ (List.range c.parts).map Heap.normal ++
    (if c.sampled2 then [Heap.sampled 0, Heap.sampled 1] else [Heap.sampled 0])

/-- `BytesToLengthCeil`, pages.h:197-200. -/
def lengthCeil (c : Cfg) (bytes : Nat) : Nat :=
  bytes / c.pageSize + (if bytes % c.pageSize > 0 then 1 else 0)

variable {W : Type}

/-- `PageAllocator::ReleaseAtLeastNPages`, page_allocator.h:367-392, over the heaps still to be asked. -/
def releaseLoop (E : Env W) (num : Nat) : List Heap → W → Nat → Option (W × Nat × List Ask)
  | [], w, released => some (w, released, [])
  | h :: hs, w, released =>
    let n := if num > released then num - released else 0
    match E.rel w h n with
    | none => none
    | some (w', got) =>
      match releaseLoop E num hs w' (released + got) with
      | none => none
      | some (w'', r, log) => some (w'', r, ⟨h, false, n, got⟩ :: log)

def releaseAtLeast (E : Env W) (c : Cfg) (w : W) (num : Nat) : Option (W × Nat × List Ask) :=
  releaseLoop E num (order c) w 0

/-- The second half of `ShrinkHardBy`, page_allocator.cc:181-209; `pages - ret` must not underflow. -/
def breakLoop (E : Env W) (pages : Nat) : List Heap → W → Nat → Option (W × Nat × List Ask)
  | [], w, ret => some (w, ret, [])
  | h :: hs, w, ret =>
    if ret ≤ pages then
      match E.brk w h (pages - ret) with
      | none => none
      | some (w', got) =>
        if pages ≤ ret + got then some (w', ret + got, [⟨h, true, pages - ret, got⟩])
        else
          match breakLoop E pages hs w' (ret + got) with
          | none => none
          | some (w'', r, log) => some (w'', r, ⟨h, true, pages - ret, got⟩ :: log)
    else none

/-- `ShrinkHardBy`, page_allocator.cc:156-210; `sub` is `Parameters::hpaa_subrelease()`. -/
def shrinkHardBy (E : Env W) (c : Cfg) (sub : Bool) (w : W) (pages : Nat) (k : Kind) : Option (W × Bool × List Ask) :=
  match releaseAtLeast E c w pages with
  | none => none
  | some (w1, ret, A) =>
    if pages ≤ ret then some (w1, true, A)
    else if k = .hard ∧ sub = false then some (w1, false, A)
    else
      match breakLoop E pages (order c) w1 ret with
      | none => none
      | some (w2, ret2, B) => some (w2, decide (pages ≤ ret2), A ++ B)

/-- How `ShrinkToUsageLimit` ends: it returns; `TC_BUG` at line 139; the assertion at line 133 (debug builds). -/
inductive Outcome where
  | returned | aborted | assertFailed
  deriving Repr, DecidableEq

/-- The high water mark, page_allocator.cc:79-95. -/
def notePeak (E : Env W) (c : Cfg) (w : W) (n : Nat) : W :=
  if E.usage w > (E.st w).peak then
    E.put w { E.st w with peak := E.usage w, peakApp := E.app w + n * c.pageSize }
  else w

/-- The hard limit, page_allocator.cc:119-146, entered when the soft limit could not be met. -/
def hardPhase (E : Env W) (c : Cfg) (sub : Bool) (w : W) : Option (W × Outcome × List Ask) :=
  let l := E.st w
  if l.hard < sizeMax then
    if E.usage w ≤ l.hard then some (w, .returned, [])
    else
      match shrinkHardBy E c sub w (lengthCeil c (E.usage w - l.hard)) .hard with
      | none => none
      | some (w1, true, log) =>
        let l1 := E.st w1
        let l2 := { l1 with okHard := l1.okHard + 1 }
        some (E.put w1 l2, if l2.okHard = l2.hitsHard then .returned else .assertFailed, log)
      | some (w1, false, log) => some (E.put w1 { E.st w1 with hard := sizeMax }, .aborted, log)
  else some (w, .returned, [])

/-- `ShrinkToUsageLimit(n)`, page_allocator.cc:78-154. -/
def shrinkToLimit (E : Env W) (c : Cfg) (sub : Bool) (w : W) (n : Nat) : Option (W × Outcome × List Ask) :=
  let w0 := notePeak E c w n
  let l := E.st w0
  if l.soft = sizeMax then some (w0, .returned, [])
  else if E.usage w ≤ l.soft then some (w0, .returned, [])
  else
    let w1 := E.put w0 { l with hitsSoft := l.hitsSoft + 1,
                                hitsHard := if l.hard < E.usage w then l.hitsHard + 1 else l.hitsHard }
    match shrinkHardBy E c sub w1 (lengthCeil c (E.usage w - l.soft)) .soft with
    | none => none
    | some (w2, true, log) =>
      some (E.put w2 { E.st w2 with okSoft := (E.st w2).okSoft + 1 }, .returned, log)
    | some (w2, false, log) =>
      match hardPhase E c sub w2 with
      | none => none
      | some (w3, o, log') => some (w3, o, log ++ log')

/-- `set_limit`, page_allocator.h:436-445. -/
def setLimit (E : Env W) (c : Cfg) (sub : Bool) (w : W) (limit : Nat) (k : Kind) : Option (W × Outcome × List Ask) :=
  let l := match k with
    | .soft => { E.st w with soft := limit }
    | .hard => { E.st w with hard := limit }
  let l := if l.hard < l.soft then { l with soft := l.hard } else l
  shrinkToLimit E c sub (E.put w l) 0

/-- `ConstantRatePageAllocatorReleaser::Release`, static_vars.h:309-348, as used by
`MallocExtension_Internal_ReleaseMemoryToSystem` (tcmalloc.cc:363-373) and the background thread.  `extra` is
`extra_bytes_released_`; the result is the new one, the world, and the value returned.  The value line 315 leaves in
`extra_bytes_released_` is always overwritten, at line 338 or 345. -/
def releaserRelease (E : Env W) (c : Cfg) (extra : Nat) (w : W) (bytes : Nat) : Option (Nat × W × Nat × List Ask) :=
  let bytes1 := if bytes ≤ extra then 0 else bytes - extra
  let num := if bytes1 > 0 then lengthCeil c bytes1 else 0
  match releaseAtLeast E c w num with
  | none => none
  | some (w', got, log) =>
    let released := got * c.pageSize
    if released > bytes1 then some (released - bytes1, w', bytes1, log) else some (0, w', released, log)

/-- `do_malloc_trim`, tcmalloc.cc:1114-1118. -/
def mallocTrim (E : Env W) (c : Cfg) (extra : Nat) (w : W) : Option (Nat × W × Nat) :=
  match releaserRelease E c extra w 0 with
  | none => none
  | some (x, w', r, _) => some (x, w', if r ≠ 0 then 1 else 0)

/-! ### The world of page heaps, with nothing else running -/

/-- The choices made outside the modelled code in one call of a heap (see `Choice`). -/
structure Pick where
  ms : Nat
  ans : Nat → Bool
  x : RelArgs

def Pick.choice (p : Pick) (s : HP) : Choice := ⟨p.ms, (List.range (s.cache.size + 1)).map p.ans, p.x⟩

/-- `meta` is `tc_globals.metadata_bytes()`; `script` are the choices of the next calls. -/
structure World where
  lim : Lim
  heaps : Heap → HP
  metadata : Nat
  app : Nat
  script : Nat → Pick

def setHeap (f : Heap → HP) (h : Heap) (s : HP) : Heap → HP := fun x => if x = h then s else f x

/-- One call of a heap. -/
def call (f : HP → Nat → Choice → Option (HP × Nat)) (w : World) (h : Heap) (n : Nat) : Option (World × Nat) :=
  match f (w.heaps h) n ((w.script 0).choice (w.heaps h)) with
  | none => none
  | some (s, m) => some ({ w with heaps := setHeap w.heaps h s, script := fun i => w.script (i + 1) }, m)

/-- `stats()` and `metadata_bytes()`, page_allocator.h:300-313. -/
def pages (H N : Nat) (c : Cfg) (w : World) : Nat := ((order c).map fun h => (w.heaps h).backed H N).sum

def env (H N : Nat) (mode : Bool) (c : Cfg) : Env World where
  st := World.lim
  put w l := { w with lim := l }
  usage w := pages H N c w * c.pageSize + w.metadata
  app := World.app
  rel := call fun s n ch => s.releaseAtLeast H N mode n ch
  brk := call fun s n ch => s.releaseBreaking H N mode n ch

end Verif.PageAllocator
