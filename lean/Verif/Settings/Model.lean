import Verif.Settings.Spec
/-!
# Settings: the model

parameters.cc and parameters.h, the limits of page_allocator.h, and the parts of `Static::SlowInitIfNecessary`
(static_vars.cc:209-245) that write settings, with any number of threads calling them.
-/
namespace Verif.Settings

/-- The state of an `absl::once_flag`: `LowLevelCallOnce` runs the function once and holds back other callers until it
has returned. -/
inductive Once where
  | fresh | running | done
  deriving DecidableEq, Repr

/-- The calls.  `limitHard` is `MallocExtension::SetMemoryLimit` of the hard kind; `set .hardLimit` is
`TCMalloc_Internal_SetHeapSizeHardLimit`, which the command-line flag uses; `alloc` is any call that sets the allocator
up if it has to. -/
inductive Call where
  | get (k : Key)
  | set (k : Key) (v : Val)
  | limitHard (v : Val)
  | alloc
  deriving DecidableEq, Repr

inductive PC where
  | idle
  /-- about to ask for the variable -/
  | enter (c : Call)
  /-- inside the once-only initialisation of setting `k`, before and after its store -/
  | storing (k : Key) (c : Call)
  | marking (k : Key) (c : Call)
  /-- has the variable: about to load or store -/
  | act (c : Call)
  /-- between the two stores of `MallocExtension_Internal_SetMemoryLimit`, tcmalloc.cc:338-341 -/
  | again (v : Val)
  /-- between the two stores of `TCMalloc_Internal_SetMaxTotalThreadCacheBytes`, parameters.cc:548-549 -/
  | apply (i : Int)
  deriving DecidableEq, Repr

structure St where
  vals : Key → Int
  /-- `overall_thread_cache_size_`, thread_cache.h:189 -/
  eff : Int
  /-- `inited_`, static_vars.h -/
  inited : Bool
  once : Key → Once
  pc : Nat → PC
  /-- undefined behaviour -/
  fault : Bool
  log : List Entry

/-- The settings kept behind a once flag, parameters.cc:63-138, 169-180, 239-262. -/
def isOnce : Key → Bool
  | .subrelease | .bgActions | .bgSleep | .skipShort | .skipLong | .rate | .madviseCold | .adaptiveRelease => true
  | _ => false

def bit (b : Bool) : Int := if b then 1 else 0

/-- The constant initialisers, parameters.cc:63-247; the limits are part of `page_allocator_`, zeroed storage until the
`PageAllocator` is constructed (static_vars.h:273, static_vars.cc:239); `max_per_cpu_cache_size_`, cpu_cache.h:825. -/
def constInit (env : Env) : Key → Int
  | .sampling => 2 * 1048576
  | .guarded => (if env.debug then 5 else 50) * (2 * 1048576)
  | .threadCache => env.threadCacheSize
  | .cpuCache => env.cpuCacheSize
  | .minHot => 1
  | .perCpu => bit (!env.perThread)
  | .dynamicSlab => 1
  | _ => 0

/-- The store made inside the once-only initialisation, if any: parameters.cc:63-138, 169-180, 239-262. -/
def onceStore (env : Env) : Key → Option Int
  | .subrelease => some (bit env.subrelease)
  | .bgActions => some 1
  | .bgSleep => some 1000000000
  | .skipShort => some (if env.smallButSlow then 0 else 60 * 1000000000)
  | .skipLong => some (if env.smallButSlow then 0 else 300 * 1000000000)
  | .madviseCold => if env.expMadvise then some 1 else none
  | .adaptiveRelease => if env.expAdaptive then some 1 else none
  | _ => none

/-- `absl::ToInt64Nanoseconds` (Abseil, not in this repository): whole nanoseconds toward zero, saturating. -/
def toNanos : Dur → Int
  | .inf => maxI64
  | .negInf => -maxI64 - 1
  | .fin q =>
    let n := q.tdiv 4
    if n > maxI64 then maxI64 else if n < -maxI64 - 1 then -maxI64 - 1 else n

/-- The word a setter stores; `none` if it returns without storing.  parameters.cc:404-437, 494-680.  The limits:
malloc_extension.cc:354-363 and parameters.cc:502-504.  `SetCacheLimit` takes a `uint64_t` where the setter has an
`int32_t`, parameters.cc:543-545 and cpu_cache.h:2235. -/
def encode (env : Env) : Key → Val → Option Int
  | .perCpu, .int v => if v = 0 ∧ env.perThread = false then none else some v
  | .dynamicSlab, .int v => if v = 0 ∧ env.mayDisableSlabs = false then none else some v
  | .cpuCache, .int v => some (v % 18446744073709551616)
  | .softLimit, .int v | .hardLimit, .int v => some (if v > 0 then v else maxU64)
  | _, .int v => some v
  | _, .dur d => some (toNanos d)

/-- The getter's conversion.  Durations: `absl::Nanoseconds`, parameters.cc:305-318.  `max_per_cpu_cache_size` returns
the `uint64_t` limit as an `int32_t`, parameters.cc:351-353. -/
def decode : Key → Int → Val
  | .bgSleep, n | .skipShort, n | .skipLong, n => .dur (.fin (4 * n))
  | .cpuCache, n => .int (let m := n % 4294967296; if m < 2147483648 then m else m - 4294967296)
  | _, n => .int n

def upd {α : Type} (f : Key → α) (k : Key) (x : α) : Key → α := fun j => if j = k then x else f j
def updN {α : Type} (f : Nat → α) (t : Nat) (x : α) : Nat → α := fun u => if u = t then x else f u

/-- `PageAllocator::set_limit`, page_allocator.h:436-445, without the release of memory (`PageAllocator` component);
any other setting is one atomic store. -/
def put (vals : Key → Int) (k : Key) (n : Int) : Key → Int :=
  let w := upd vals k n
  if k = .softLimit ∨ k = .hardLimit then
    if w .hardLimit < w .softLimit then upd w .softLimit (w .hardLimit) else w
  else w

/-- A setter's store, with its log entry. -/
def write (env : Env) (s : St) (k : Key) (v : Val) : St :=
  { s with
    vals := (match encode env k v with
      | none => s.vals
      | some n => put s.vals k n)
    log := .wrote k v :: s.log }

/-- `InitIfNecessary`/`SlowInitIfNecessary`, static_vars.cc:209-245: the stores that concern settings.  Taken as one
step; it makes at most one store to each setting, and no call reads two of them together except the limits, which need
the lock it holds. -/
def setUp (env : Env) (s : St) : St :=
  if s.inited then s
  else
    let v := s.vals
    let v := if env.cpusKnown then v else upd v .perCpu 0
    let v := if env.expCache1MB then upd v .cpuCache (1024 * 1024) else v
    let v := if env.expPgho then upd v .minHot 2 else v
    let v := upd (upd v .softLimit maxU64) .hardLimit maxU64
    { s with vals := v, inited := true, log := .inited :: s.log }

def Call.key : Call → Option Key
  | .get k | .set k _ => some k
  | _ => none

/-- A call is made only with an argument of its type. -/
def Call.Typed : Call → Prop
  | .set k v => WellTyped k v
  | .limitHard v => WellTyped .hardLimit v
  | _ => True

instance (c : Call) : Decidable c.Typed := by
  cases c <;> simp only [Call.Typed] <;> infer_instance

inductive Act where
  | call (t : Nat) (c : Call)
  | tick (t : Nat)
  deriving DecidableEq, Repr

/-- The next step of a thread that holds its variable. -/
def doAct (env : Env) (s : St) (t : Nat) : Call → St
  /- parameters.h:63-220, parameters.cc:194-343, tcmalloc.cc:329-333 -/
  | .get k => { s with log := .got k (decode k (s.vals k)) :: s.log, pc := updN s.pc t .idle }
  | .set k v =>
    if k = .hardLimit then
      /- parameters.cc:502-517 -/
      if s.inited then { write env s k v with pc := updN s.pc t .idle } else setUp env s
    else if k = .softLimit then
      /- tcmalloc.cc:335-342 goes straight to `set_limit`; before the `PageAllocator` is constructed its
      `ShrinkToUsageLimit` calls `stats` through `normal_impl_[0]`, a null pointer: page_allocator.cc:79,
      page_allocator.h:301 -/
      if s.inited then { write env s k v with pc := updN s.pc t .idle } else { s with fault := true }
    else if k = .threadCache then
      /- parameters.cc:547-550 -/
      { write env s k v with pc := updN s.pc t (.apply (match v with | .int i => i | .dur _ => 0)) }
    else { write env s k v with pc := updN s.pc t .idle }
  /- tcmalloc.cc:335-342 -/
  | .limitHard v =>
    if s.inited then { write env s .hardLimit v with pc := updN s.pc t (.again v) } else setUp env s
  | .alloc => { setUp env s with pc := updN s.pc t .idle }

/-- One step; `none` if the thread cannot take it. -/
def step (env : Env) (s : St) : Act → Option St
  | .call t c =>
    if s.fault = false ∧ s.pc t = .idle ∧ c.Typed then some { s with pc := updN s.pc t (.enter c) } else none
  | .tick t =>
    if s.fault then none
    else
      match s.pc t with
      | .idle => none
      | .enter c =>
        match c.key with
        | none => some { s with pc := updN s.pc t (.act c) }
        | some k =>
          if isOnce k then
            match s.once k with
            | .fresh => some { s with once := upd s.once k .running, pc := updN s.pc t (.storing k c) }
            | .running => none
            | .done => some { s with pc := updN s.pc t (.act c) }
          else some { s with pc := updN s.pc t (.act c) }
      | .storing k c =>
        some { s with
          vals := (match onceStore env k with
            | none => s.vals
            | some n => upd s.vals k n)
          pc := updN s.pc t (.marking k c) }
      | .marking k c => some { s with once := upd s.once k .done, pc := updN s.pc t (.act c) }
      | .act c => some (doAct env s t c)
      | .again v => some { write env s .hardLimit v with pc := updN s.pc t .idle }
      /- `set_overall_thread_cache_size`, thread_cache.cc:426-434: the argument is converted to `size_t` -/
      | .apply i =>
        let n := i % 18446744073709551616
        some { s with eff := (if n < env.minThreadCache then (env.minThreadCache : Int) else n), pc := updN s.pc t .idle }

def init (env : Env) : St :=
  { vals := constInit env, eff := env.threadCacheSize, inited := false, once := fun _ => .fresh, pc := fun _ => .idle,
    fault := false, log := [] }

def run (env : Env) (s : St) : List Act → Option St
  | [] => some s
  | a :: as =>
    match step env s a with
    | none => none
    | some s' => run env s' as

/-- States some schedule of calls leads to. -/
def Reach (env : Env) (s : St) : Prop := ∃ as, run env (init env) as = some s

/-! ## Heap partitioning and subrelease: what the environment decides -/

/-- `tolower` of an ASCII byte, as `strcasecmp` applies it in the C locale. -/
def lower (c : UInt8) : UInt8 := if 65 ≤ c ∧ c ≤ 90 then c + 32 else c

/-- `strcasecmp(a, b) == 0`, of strings without their terminating null. -/
def caseEq (a b : List UInt8) : Bool := a.map lower == b.map lower

/-- "false", "light", "0", "2". -/
def sFalse : List UInt8 := [102, 97, 108, 115, 101]
def sLight : List UInt8 := [108, 105, 103, 104, 116]
def sZero : List UInt8 := [48]
def sTwo : List UInt8 := [50]

/-- `heap_partitioning_mode_ptr`, parameters.cc:264-291. -/
def partitioning (partitions : Nat) (experiment linked : Bool) (hp : Option (List UInt8)) : Mode :=
  if partitions = 1 then .off
  else
    match hp with
    | none => if experiment || linked then .full else .off
    | some e =>
      if caseEq e sFalse || e == sZero then .off
      else if e == sTwo || caseEq e sLight then .light
      else .full

/-- huge_page_aware_allocator.cc:62-69.  `linked` is the result of `default_subrelease`, if it is linked in. -/
def linkedSubrelease : Option Int → Bool
  | some d => if d ≠ 0 then decide (d > 0) else true
  | none => true

/-- `decide_subrelease`, huge_page_aware_allocator.cc:45-70; `none` is the crash of line 58. -/
def decideSubrelease (e : Option (List UInt8)) (linked : Option Int) : Option Bool :=
  match e with
  | none => some (linkedSubrelease linked)
  | some s =>
    match s.head?.getD 0 with
    | 48 => some (linkedSubrelease linked)
    | 49 => some false
    | 50 => some true
    | _ => none

end Verif.Settings
