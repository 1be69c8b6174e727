/-!
Lifetime and event-trace profiles (tcmalloc/deallocation_profiler.cc), and the order in which the sampled path reports to them
(tcmalloc/allocation_sampling.h:205-215, 378-393).

Numbers stand for handles, threads, CPUs and program counters.  What `operator==` of a record compares besides the stack (sizes, hints,
types; deallocation_profiler.cc:109-126) is one number `attrs`, and `size` (`allocated_size`) besides.  Doubles are exact numbers: counts are
natural numbers, lifetimes integers (nanoseconds), the running mean and variance rationals.  Hash maps are association lists.  The sum of bytes and the
count derived from sampling weights (deallocation_profiler.cc:750-760) are not modelled.
-/
namespace Verif.Lifetime

/-- What a sampled allocation's `StackTrace` says. -/
structure Info where
  stack : List Nat
  attrs : Nat
  size : Nat
  time : Int
  deriving DecidableEq

/-- Where a thread runs: `GetRealCpu`, `VirtualCpu::get`, `GetL3Id`, `GetNumaId`, `GetTID`. -/
structure Loc where
  cpu : Int
  vcpu : Int
  l3 : Int
  numa : Int
  thread : Int
  deriving DecidableEq

/-- `DeallocationSampleRecord`, deallocation_profiler.cc:88-94. -/
structure Rec where
  handle : Nat
  info : Info
  loc : Loc
  deriving DecidableEq

/-- Two keys are equal as the code says, :109-126. -/
abbrev Key := List Nat × Nat × Nat

def Rec.key (r : Rec) : Key := (r.info.stack, r.info.attrs, r.info.size)

/-- `Value` of one case, :448-462; the initial minimum is the largest double: `none`. -/
structure Cell where
  count : Nat := 0
  mean : Rat := 0
  var : Rat := 0
  min : Option Int := none
  max : Int := 0
  deriving DecidableEq

/-- `CpuThreadMatchingStatus::value`, :139-143. -/
def statusOf (b4 b3 b2 b1 b0 : Bool) : Nat := b4.toNat * 16 + b3.toNat * 8 + b2.toNat * 4 + b1.toNat * 2 + b0.toNat

/-- `RpcMatchingStatus::ComputeValue`, :153-159. -/
def rpcOf (alloc dealloc : Nat) : Nat := if alloc ≠ 0 ∧ dealloc ≠ 0 then (if alloc = dealloc then 1 else 0) else 2

/-- `ComputeIndex`, :167-169. -/
def computeIndex (status rpc : Nat) : Nat := status * 3 + rpc

inductive Mode
  | lifetimes
  | eventTrace
  deriving DecidableEq

/-- `DeallocationStackTraceTable`, :370-480. -/
structure Table where
  mode : Mode
  maxEvents : Nat
  table : List ((Key × Key) × (Nat → Cell))
  events : List Rec

def upd {α : Type} (f : Nat → α) (i : Nat) (v : α) : Nat → α := fun x => if x = i then v else f x

/-- `table_[k]`, updated. -/
def put (f : (Nat → Cell) → (Nat → Cell)) (k : Key × Key) : List ((Key × Key) × (Nat → Cell)) → List ((Key × Key) × (Nat → Cell))
  | [] => [(k, f fun _ => {})]
  | (k', v) :: l => if k' = k then (k', f v) :: l else (k', v) :: put f k l

/-- One lifetime more, :678-690. -/
def Cell.add (v : Cell) (x : Int) : Cell :=
  let mean := v.mean + (x - v.mean) / (v.count + 1)
  { count := v.count + 1, mean, var := v.var + (x - mean) * (mean - v.mean),
    min := some (match v.min with | none => x | some m => if x < m then x else m), max := if v.max < x then x else v.max }

/-- The index for a pair, :652-665. -/
def index (a d : Rec) : Nat :=
  computeIndex (statusOf (a.loc.cpu == d.loc.cpu) (a.loc.vcpu == d.loc.vcpu) (a.loc.l3 == d.loc.l3) (a.loc.numa == d.loc.numa)
    (a.loc.thread == d.loc.thread)) (rpcOf 0 0)

/-- `AddTrace`, :628-691. -/
def Table.addTrace (t : Table) (a d : Rec) : Table :=
  match t.mode with
  | .eventTrace =>
    if t.events.length + 2 ≤ t.maxEvents then
      { t with events := t.events ++ (if a.info.stack.length > 0 then [a] else []) ++
          (if d.info.stack.length > 0 then [{ d with info := { d.info with size := 0 } }] else []) }
    else t
  | .lifetimes =>
    if a.info.stack.length = 0 then t
    else { t with table := put (fun v => upd v (index a d) ((v (index a d)).add (d.info.time - a.info.time))) (a.key, d.key) t.table }

/-- `DeallocationProfiler`, :482-554. -/
structure Prof where
  /-- `allocs_` -/
  allocs : List (Nat × Rec)
  reports : Table

def setKey (l : List (Nat × Rec)) (h : Nat) (r : Rec) : List (Nat × Rec) := (h, r) :: l.filter fun x => x.1 != h

/-- `ReportMalloc`, :513-525. -/
def Prof.malloc (p : Prof) (h : Nat) (i : Info) (w : Loc) : Prof := { p with allocs := setKey p.allocs h ⟨h, i, w⟩ }

/-- A deallocation whose allocation was not seen, :533-536. -/
def unseen (h : Nat) : Rec := ⟨h, ⟨[], 0, 0, 0⟩, ⟨-1, -1, -1, -1, 0⟩⟩

/-- `ReportFree`, :527-553. -/
def Prof.free (p : Prof) (h : Nat) (stack : List Nat) (time : Int) (w : Loc) : Prof :=
  let sample := (p.allocs.lookup h).getD (unseen h)
  { allocs := p.allocs.filter fun x => x.1 != h,
    reports := p.reports.addTrace sample ⟨sample.handle, { sample.info with time, stack }, w⟩ }

/-- The dummy record of an allocation not freed, :620-623; a record's location fields are initially -1 (0 for the thread), :88-94. -/
def censored (a : Rec) (time : Int) : Rec := ⟨a.handle, { a.info with time, stack := [] }, ⟨-1, -1, -1, -1, 0⟩⟩

/-- `StopAndRecord`, :611-626. -/
def Prof.stop (p : Prof) (time : Int) : Table := p.allocs.foldl (fun t x => t.addTrace x.2 (censored x.2 time)) p.reports

/-- `first_` and the profilers, `profilers_lock_` held by the `Add` of a profiler. -/
structure St where
  first : List Nat
  prof : Nat → Option Prof
  lock : Option Nat

def init : St := ⟨[], fun _ => none, none⟩

inductive Ev
  /-- `deallocation_samples.ReportMalloc(stack_trace)` of the sampled path, allocation_sampling.h:209 -/
  | malloc (h : Nat) (i : Info) (w : Loc)
  /-- `sampled_allocation_recorder().Register` takes effect, allocation_sampling.h:214-215 -/
  | register (h : Nat)
  /-- `sampled_allocation_recorder().Unregister` takes effect, allocation_sampling.h:378 -/
  | unregister (h : Nat)
  /-- `deallocation_samples.ReportFree`, allocation_sampling.h:393 -/
  | free (h : Nat) (stack : List Nat) (time : Int) (w : Loc)
  /-- a profile is started: the constructor up to the call of `Iterate` -/
  | add (p : Nat) (m : Mode) (maxEvents : Nat)
  /-- `Iterate` has called its argument with `l`, and the constructor returns -/
  | seed (p : Nat) (l : List (Nat × Info)) (w : Loc)
  /-- `Stop` -/
  | stop (p : Nat) (time : Int)
  deriving DecidableEq

inductive Out
  | tau
  | profile (p : Nat) (t : Table)

/-- Every profiler of the list, :582-600. -/
def St.each (s : St) (f : Prof → Prof) : St := { s with prof := fun p => if p ∈ s.first then (s.prof p).map f else s.prof p }

/-- `Remove`: walk to the profiler; `none`: not in the list (`TC_CHECK_NE`), :570-580. -/
def unlink (p : Nat) : List Nat → Option (List Nat)
  | [] => none
  | q :: l => if q = p then some l else (unlink p l).map (q :: ·)

/-- One step; `none`: not possible (the lock is held) or a failed check. -/
def step (s : St) : Ev → Option (St × Out)
  | .malloc h i w => if s.lock.isSome then none else some (s.each (·.malloc h i w), .tau)
  | .register _ => some (s, .tau)
  | .unregister _ => some (s, .tau)
  | .free h stack time w => if s.lock.isSome then none else some (s.each (·.free h stack time w), .tau)
  -- :488-493, 556-559
  | .add p m maxEvents =>
    if s.lock.isSome then none
    else some ({ first := p :: s.first, prof := upd s.prof p (some ⟨[], ⟨m, if m = .eventTrace then maxEvents else 0, [], []⟩⟩),
                 lock := some p }, .tau)
  -- :561-566
  | .seed p l w =>
    if s.lock = some p then
      some ({ s with prof := upd s.prof p ((s.prof p).map fun q => l.foldl (fun q x => q.malloc x.1 x.2 w) q), lock := none }, .tau)
    else none
  -- :501-511
  | .stop p time =>
    if s.lock.isSome then none
    else
      match unlink p s.first, s.prof p with
      | some l, some q => some ({ s with first := l, prof := upd s.prof p none }, .profile p (q.stop time))
      | _, _ => none

/-- The cases `Iterate` goes through, :185-307: the physical CPU, virtual CPU, cache, node and thread bits and the RPC value. -/
def allCases : List (Nat × Nat) :=
  (List.range 8).flatMap fun hi => [2, 0, 1].flatMap fun rpc => (List.range 4).map fun lo => (hi * 4 + lo, rpc)

/-- The cells `Iterate` reports, in lifetimes mode, :744-748. -/
def Table.cells (t : Table) : List ((Key × Key) × (Nat × Nat) × Cell) :=
  t.table.flatMap fun e => allCases.filterMap fun c =>
    let v := e.2 (computeIndex c.1 c.2)
    if v.count = 0 then none else some (e.1, c, v)

/-- `LifetimeNsToBucketedDuration`, :843-864, in nanoseconds. -/
def bucketize (x : Rat) : Nat :=
  if x < 1000000 then
    if x ≤ 1 then 1
    else if x < 10 then 1
    else if x < 100 then 10
    else if x < 1000 then 100
    else if x < 10000 then 1000
    else if x < 100000 then 10000
    else 100000
  else (x / 1000000).floor.toNat * 1000000

end Verif.Lifetime
