/-
Model of what happens around a sampled allocation: `SampleifyAllocation` and
`MaybeUnsampleAllocation` (/repo/tcmalloc/allocation_sampling.h), `Span::Sample` and
`Span::UnsampleSlow` (/repo/tcmalloc/span.cc), allocation profiles
(/repo/tcmalloc/allocation_sample.{h,cc}), the entries of a profile
(/repo/tcmalloc/stack_trace_table.cc) and the peak heap profile
(/repo/tcmalloc/peak_heap_tracker.{h,cc}).

Any number of calls are in flight.  Every access to shared state is one step: an atomic counter, or
what is done while a lock is held.  The recorder of live samples is the list of samples registered
in it; that its own lock-free implementation behaves so is C57.  Simplified: stack contents, times,
tags and hooks are left out; hooks are C56, deallocation profiles C58, the guarded path C34.
-/
namespace Verif.Sampling

/-- The fields of `StackTrace` that matter here, sampled_allocation.h / internal/logging.h. -/
structure Sample where
  handle : Nat
  weight : Nat
  requested : Nat
  allocated : Nat
  deriving DecidableEq, Repr

/-- The floating-point computations, each a function of its arguments. -/
structure Arith where
  /-- `allocation_estimate * (allocated_size - requested_size)` as an integer,
  allocation_sampling.h:112-113,185-188,358-359,382-384. -/
  frag : Sample → Nat
  /-- `AllocatedBytes` as an integer, sampler.cc:156-159, span.cc:55-57. -/
  bytes : Sample → Nat
  /-- The comparison of `IsNewPeak`, peak_heap_tracker.cc:38-42: size, then peak. -/
  newPeak : Int → Int → Bool
  /-- `peak_sampling_heap_growth_fraction() > 0`. -/
  enabled : Bool

/-- The same in exact arithmetic, with the growth fraction `num / den`. -/
def exact (num den : Nat) : Arith where
  frag s := s.weight * (s.allocated - s.requested) / (s.requested + 1)
  bytes s := s.weight * s.allocated / (s.requested + 1)
  newPeak size peak := decide (peak * num < size * den)
  enabled := decide (0 < num)

/-- Where a call is.  Up to `saving` it is an allocation, after that a deallocation. -/
inductive Pc where
  /-- The handle is taken, allocation_sampling.h:173-177. -/
  | took (s : Sample)
  /-- Fragmentation is counted, :185-188. -/
  | fragged (s : Sample)
  /-- `allocation_samples.ReportMalloc` has returned, :207. -/
  | reported (s : Sample)
  /-- The sample is registered, :214-215. -/
  | registered (s : Sample)
  /-- `span->Sample` has returned, :218. -/
  | sampled (s : Sample)
  /-- The first `IsNewPeak` has read the peak, peak_heap_tracker.cc:39. -/
  | peakRead (s : Sample) (p : Int)
  /-- It was true, peak_heap_tracker.cc:45-47. -/
  | wantLock (s : Sample)
  /-- The lock is held, :49. -/
  | holding (s : Sample)
  /-- The second was true, :53-55. -/
  | locked (s : Sample)
  /-- The size has been read for `SetCurrentPeakSize`, :56. -/
  | readSize (s : Sample) (v : Int)
  /-- It is stored, the old peak is discarded and `Iterate` is under way, :56-67. -/
  | saving (s : Sample)
  /-- `span.Unsample` has returned, allocation_sampling.h:268. -/
  | unsampled (s : Sample)
  /-- `Unregister` has returned, :378. -/
  | unregistered (s : Sample)
  | done
  deriving DecidableEq, Repr

/-- A running allocation profile in the list: which, and its table, newest entry first. -/
structure Node where
  tok : Nat
  table : List Sample
  deriving DecidableEq, Repr

/-- The profiling token a user holds. -/
inductive Tok where
  | absent
  | running
  | stopped
  | gone
  deriving DecidableEq, Repr

/-- What can be seen from outside. -/
inductive Ev where
  /-- An allocation is sampled: `ReportMalloc` of it. -/
  | sampled (s : Sample)
  /-- A profile is started, stopped, or its token destroyed. -/
  | started (tok : Nat)
  | stopped (tok : Nat) (out : Option (List Sample))
  | dropped (tok : Nat)
  /-- A peak heap profile is taken. -/
  | dumped (l : List Sample)
  deriving DecidableEq, Repr

structure State where
  gen : Nat
  frag : Int
  size : Int
  total : Nat
  first : List Node
  toks : Nat → Tok
  live : List Sample
  /-- Sampled blocks the user holds. -/
  owned : List Sample
  lock : Bool
  peakSize : Int
  peak : List Sample
  /-- While the live samples are copied: those live since the start, and those live at some time. -/
  window : Option (List Sample × List Sample)
  calls : List Pc
  /-- Newest first. -/
  trace : List Ev

def init : State :=
  ⟨0, 0, 0, 0, [], fun _ => .absent, [], [], false, 0, [], none, [], []⟩

inductive Cmd where
  /-- An allocation that is sampled. -/
  | malloc (weight requested allocated : Nat)
  /-- The user frees a sampled block. -/
  | free (s : Sample)
  /-- Call `i` goes on. -/
  | go (i : Nat)
  /-- Call `i` finishes its copy of the live samples. -/
  | save (i : Nat) (copied : List Sample)
  | start (tok : Nat)
  | stop (tok : Nat)
  | drop (tok : Nat)
  | dump

inductive Out where
  /-- The command is not possible. -/
  | no
  /-- A check fails. -/
  | fail
  | ok (σ : State)

def setTok (f : Nat → Tok) (t : Nat) (v : Tok) : Nat → Tok := fun x => if x = t then v else f x

/-- `Add`, allocation_sample.h:55-59. -/
def add (first : List Node) (tok : Nat) : List Node := ⟨tok, []⟩ :: first

/-- `Remove`, allocation_sample.h:62-72: walk to the node; `none` is the failed check. -/
def remove : List Node → Nat → Option (List Node)
  | [], _ => none
  | n :: l, tok => if n.tok = tok then some l else (remove l tok).map (n :: ·)

/-- The table of a node. -/
def tableOf (first : List Node) (tok : Nat) : List Sample :=
  ((first.find? fun n => n.tok = tok).map Node.table).getD []

/-- `ReportMalloc`, allocation_sample.h:74-81, with the end of `AddTrace`,
stack_trace_table.cc:103-104. -/
def report (first : List Node) (s : Sample) : List Node :=
  first.map fun n => { n with table := s :: n.table }

/-- `Register`, as a copy under way sees it. -/
def winAdd (w : Option (List Sample × List Sample)) (s : Sample) :
    Option (List Sample × List Sample) := w.map fun (must, may) => (must, s :: may)
/-- `Unregister`, as a copy under way sees it. -/
def winErase (w : Option (List Sample × List Sample)) (s : Sample) :
    Option (List Sample × List Sample) := w.map fun (must, may) => (must.erase s, may)

/-- The call returns the block to the user. -/
def State.ret (σ : State) (i : Nat) (s : Sample) : State :=
  { σ with calls := σ.calls.set i .done, owned := s :: σ.owned }

/-- The next step of call `i`, which is at `pc`. -/
def goStep (A : Arith) (σ : State) (i : Nat) : Pc → Out
  | .took s =>
    .ok { σ with
      frag := if s.requested < s.allocated then σ.frag + A.frag s else σ.frag
      calls := σ.calls.set i (.fragged s) }
  | .fragged s =>
    .ok { σ with
      first := report σ.first s
      trace := .sampled s :: σ.trace
      calls := σ.calls.set i (.reported s) }
  | .reported s =>
    .ok { σ with
      live := s :: σ.live
      window := winAdd σ.window s
      calls := σ.calls.set i (.registered s) }
  | .registered s =>
    .ok { σ with
      size := σ.size + A.bytes s
      total := σ.total + 1
      calls := σ.calls.set i (.sampled s) }
  | .sampled s =>
    if !A.enabled then .ok (σ.ret i s)
    else .ok { σ with calls := σ.calls.set i (.peakRead s σ.peakSize) }
  | .peakRead s p =>
    if !A.newPeak σ.size p then .ok (σ.ret i s)
    else .ok { σ with calls := σ.calls.set i (.wantLock s) }
  | .wantLock s =>
    if σ.lock then .no else .ok { σ with lock := true, calls := σ.calls.set i (.holding s) }
  | .holding s =>
    -- the peak is only written with the lock held
    if !A.newPeak σ.size σ.peakSize then .ok { σ.ret i s with lock := false }
    else .ok { σ with calls := σ.calls.set i (.locked s) }
  | .locked s => .ok { σ with calls := σ.calls.set i (.readSize s σ.size) }
  | .readSize s v =>
    .ok { σ with
      peakSize := v
      peak := []
      window := some (σ.live, σ.live)
      calls := σ.calls.set i (.saving s) }
  | .saving _ => .no
  | .unsampled s =>
    .ok { σ with
      live := σ.live.erase s
      window := winErase σ.window s
      calls := σ.calls.set i (.unregistered s) }
  | .unregistered s =>
    if s.requested < s.allocated then
      if σ.frag < A.frag s then .fail
      else .ok { σ with frag := σ.frag - A.frag s, calls := σ.calls.set i .done }
    else .ok { σ with calls := σ.calls.set i .done }
  | .done => .no

def step (A : Arith) (σ : State) : Cmd → Out
  | .malloc w r a =>
    -- allocation_sampling.h:90-177; the size of the block is at least what was asked for
    if r ≤ a then
      .ok { σ with gen := σ.gen + 1, calls := σ.calls ++ [.took ⟨σ.gen + 1, w, r, a⟩] }
    else .no
  | .free s =>
    -- `Unsample`, span.cc:62-80
    if s ∈ σ.owned then
      .ok { σ with
        owned := σ.owned.erase s
        size := σ.size - A.bytes s
        calls := σ.calls ++ [.unsampled s] }
    else .no
  | .go i =>
    match σ.calls[i]? with
    | none => .no
    | some pc => goStep A σ i pc
  | .save i copied =>
    -- peak_heap_tracker.cc:62-68
    match σ.calls[i]?, σ.window with
    | some (.saving s), some (must, may) =>
      if (∀ x ∈ must, x ∈ copied) ∧ (∀ x ∈ copied, x ∈ may) ∧ copied.Nodup then
        .ok { σ with
          peak := copied.reverse, window := none, lock := false
          calls := σ.calls.set i .done, owned := s :: σ.owned }
      else .no
    | _, _ => .no
  | .start tok =>
    -- `AllocationSample::AllocationSample`, allocation_sample.cc:30-35
    if σ.toks tok = .absent then
      .ok { σ with
        first := add σ.first tok
        toks := setTok σ.toks tok .running
        trace := .started tok :: σ.trace }
    else .no
  | .stop tok =>
    -- `Stop`, allocation_sample.cc:46-56
    match σ.toks tok with
    | .running =>
      match remove σ.first tok with
      | none => .fail
      | some l =>
        .ok { σ with
          first := l
          toks := setTok σ.toks tok .stopped
          trace := .stopped tok (some (tableOf σ.first tok)) :: σ.trace }
    | .stopped => .ok { σ with trace := .stopped tok none :: σ.trace }
    | _ => .no
  | .drop tok =>
    -- `~AllocationSample`, allocation_sample.cc:37-44
    match σ.toks tok with
    | .running =>
      match remove σ.first tok with
      | none => .fail
      | some l =>
        .ok { σ with
          first := l, toks := setTok σ.toks tok .gone, trace := .dropped tok :: σ.trace }
    | .stopped =>
      .ok { σ with toks := setTok σ.toks tok .gone, trace := .dropped tok :: σ.trace }
    | _ => .no
  | .dump =>
    -- `DumpSample`, peak_heap_tracker.cc:70-80: entries are pushed in front
    if σ.lock then .no else .ok { σ with trace := .dumped σ.peak.reverse :: σ.trace }

/-- The states that some history leads to. -/
inductive Reach (A : Arith) : State → Prop where
  | init : Reach A init
  | step {σ c τ} (h : Reach A σ) (hs : Sampling.step A σ c = .ok τ) : Reach A τ

/-- No call is in flight. -/
def Quiet (σ : State) : Prop := ∀ pc ∈ σ.calls, pc = .done

/-- Histories in which a call returns before the next one begins. -/
inductive Seq (A : Arith) : State → Prop where
  | init : Seq A init
  | step {σ c τ} (h : Seq A σ) (hs : Sampling.step A σ c = .ok τ)
      (hq : ∀ w r a, c = .malloc w r a → Quiet σ) (hq' : ∀ s, c = .free s → Quiet σ) : Seq A τ

/-! ### Profile entries -/

/-- The count and total of an entry, `AddTrace`, stack_trace_table.cc:51-81, in exact arithmetic
and for weight 1.0. -/
def entryCount (s : Sample) : Nat :=
  if s.allocated ≠ 0 then
    -- `AllocatedBytes(t) + 0.5`, truncated
    let bytes := (2 * s.weight * s.allocated + (s.requested + 1)) / (2 * (s.requested + 1))
    (bytes + s.allocated / 2) / s.allocated
  else 1

def entrySum (s : Sample) : Nat := entryCount s * s.allocated

end Verif.Sampling
