/-!
# Settings: what the interface promises (C83)

The run-time settings a program can change and read back: sampling intervals, cache sizes, background work, memory
limits.  Nothing here mentions how they are stored.
-/
namespace Verif.Settings

/-- An `absl::Duration`: infinite, or a whole number of quarter nanoseconds. -/
inductive Dur where
  | fin (quarters : Int)
  | inf
  | negInf
  deriving DecidableEq, Repr

/-- The argument of a setter, or the result of a getter.  Booleans are 0 and 1. -/
inductive Val where
  | int (i : Int)
  | dur (d : Dur)
  deriving DecidableEq, Repr

/-- The settings. -/
inductive Key where
  /-- `Get/SetProfileSamplingInterval`, a signed 64-bit number -/
  | sampling
  /-- `Get/SetGuardedSamplingInterval`, a signed 64-bit number -/
  | guarded
  /-- `Get/SetMaxTotalThreadCacheBytes`, a signed 64-bit number -/
  | threadCache
  /-- `Get/SetMaxPerCpuCacheSize`, a signed 32-bit number -/
  | cpuCache
  /-- the hotness threshold, an 8-bit number -/
  | minHot
  /-- per-CPU caches wanted, a boolean -/
  | perCpu
  /-- per-CPU slabs may be resized, a boolean -/
  | dynamicSlab
  /-- `Get/SetBackgroundProcessActionsEnabled` -/
  | bgActions
  /-- `Get/SetBackgroundProcessSleepInterval`, a duration -/
  | bgSleep
  /-- `Get/SetSkipSubreleaseShortInterval`, a duration -/
  | skipShort
  /-- `Get/SetSkipSubreleaseLongInterval`, a duration -/
  | skipLong
  /-- `Get/SetBackgroundReleaseRate`, an unsigned 64-bit number -/
  | rate
  /-- hugepages may be broken up, a boolean -/
  | subrelease
  /-- the two experiment-controlled booleans -/
  | madviseCold
  | adaptiveRelease
  /-- `Get/SetMemoryLimit` of the two kinds, unsigned 64-bit numbers -/
  | softLimit
  | hardLimit
  deriving DecidableEq, Repr

/-- What the process starts with: how the allocator was built, and what it finds in its environment. -/
structure Env where
  /-- linked against the deprecated per-thread build -/
  perThread : Bool
  /-- the small-but-slow build -/
  smallButSlow : Bool
  /-- built without `NDEBUG` -/
  debug : Bool
  /-- `default_want_disable_dynamic_slabs` is linked in and positive -/
  mayDisableSlabs : Bool
  /-- the system's CPU count can be read -/
  cpusKnown : Bool
  /-- what the environment says about breaking up hugepages -/
  subrelease : Bool
  /-- four experiments -/
  expCache1MB : Bool
  expPgho : Bool
  expMadvise : Bool
  expAdaptive : Bool
  /-- the per-CPU cache size, the total thread-cache size and the least thread-cache size of the build -/
  cpuCacheSize : Nat
  threadCacheSize : Nat
  minThreadCache : Nat
  deriving Repr

def maxU64 : Int := 18446744073709551615
def maxI64 : Int := 9223372036854775807
def maxI32 : Int := 2147483647

def ofBool (b : Bool) : Val := .int (if b then 1 else 0)

/-- One second, in quarter nanoseconds. -/
def second : Int := 4000000000

/-- The values a setter's C++ type admits. -/
def WellTyped : Key → Val → Prop
  | .sampling, .int i | .guarded, .int i | .threadCache, .int i => -maxI64 - 1 ≤ i ∧ i ≤ maxI64
  | .cpuCache, .int i => -maxI32 - 1 ≤ i ∧ i ≤ maxI32
  | .minHot, .int i => 0 ≤ i ∧ i ≤ 255
  | .rate, .int i | .softLimit, .int i | .hardLimit, .int i => 0 ≤ i ∧ i ≤ maxU64
  | .perCpu, .int i | .dynamicSlab, .int i | .bgActions, .int i | .subrelease, .int i
  | .madviseCold, .int i | .adaptiveRelease, .int i => i = 0 ∨ i = 1
  | .bgSleep, .dur _ | .skipShort, .dur _ | .skipLong, .dur _ => True
  | _, _ => False

instance (k : Key) (v : Val) : Decidable (WellTyped k v) := by
  cases k <;> cases v <;> simp only [WellTyped] <;> infer_instance

/-- The value each setting has before the program sets it. -/
def start (env : Env) : Key → Val
  | .sampling => .int 2097152
  | .guarded => .int (if env.debug then 5 * 2097152 else 50 * 2097152)
  | .threadCache => .int env.threadCacheSize
  | .cpuCache => .int (if env.expCache1MB then 1048576 else env.cpuCacheSize)
  | .minHot => .int (if env.expPgho then 2 else 1)
  | .perCpu => ofBool (!env.perThread && env.cpusKnown)
  | .dynamicSlab => ofBool true
  | .bgActions => ofBool true
  | .bgSleep => .dur (.fin second)
  | .skipShort => .dur (.fin (if env.smallButSlow then 0 else 60 * second))
  | .skipLong => .dur (.fin (if env.smallButSlow then 0 else 300 * second))
  | .rate => .int 0
  | .subrelease => ofBool env.subrelease
  | .madviseCold => ofBool env.expMadvise
  | .adaptiveRelease => ofBool env.expAdaptive
  | .softLimit => .int maxU64
  | .hardLimit => .int maxU64

/-- A duration as it is read back: cut to whole nanoseconds, toward zero, and to what 64 bits of them can say. -/
def cutDur : Dur → Dur
  | .inf => .fin (4 * maxI64)
  | .negInf => .fin (4 * (-maxI64 - 1))
  | .fin q =>
    if q > 4 * maxI64 then .fin (4 * maxI64)
    else if q < 4 * (-maxI64 - 1) then .fin (4 * (-maxI64 - 1))
    else .fin (q - q.tmod 4)

/-- The value read back after a setting is given `v`; `none` where the allocator refuses the change. -/
def readBack (env : Env) : Key → Val → Option Val
  /- per-CPU caches can be turned off only in the per-thread build -/
  | .perCpu, v => if v = .int 0 ∧ env.perThread = false then none else some v
  /- resizing can be turned off only by a program that links the opt-out -/
  | .dynamicSlab, v => if v = .int 0 ∧ env.mayDisableSlabs = false then none else some v
  | .bgSleep, .dur d | .skipShort, .dur d | .skipLong, .dur d => some (.dur (cutDur d))
  /- 0 stands for no limit -/
  | .softLimit, v | .hardLimit, v => some (if v = .int 0 then .int maxU64 else v)
  | _, v => some v

/-- What the program and the allocator did, as far as settings go.  The newest entry comes first. -/
inductive Entry where
  /-- the setting was given a value -/
  | wrote (k : Key) (v : Val)
  /-- a getter returned this -/
  | got (k : Key) (x : Val)
  /-- the allocator set itself up, as its first allocation makes it do -/
  | inited
  deriving DecidableEq, Repr

def least : Val → Val → Val
  | .int a, .int b => .int (min a b)
  | v, _ => v

/-- The value a setting should have after a history: what it was last given.  The soft limit is never above the hard
one, which holds it down. -/
def expect (env : Env) : List Entry → Key → Val
  | [], j => start env j
  | .wrote k v :: l, j =>
    match readBack env k v with
    | none => expect env l j
    | some x =>
      if j = k then (if k = .softLimit then least x (expect env l .hardLimit) else x)
      else if j = .softLimit ∧ k = .hardLimit then least (expect env l .softLimit) x
      else expect env l j
  | _ :: l, j => expect env l j

/-- The settings that the allocator's setting itself up writes: the limits, and three more if an experiment or an
unreadable CPU count asks for it. -/
def setUpWrites (env : Env) : Key → Bool
  | .cpuCache => env.expCache1MB
  | .minHot => env.expPgho
  | .perCpu => !env.cpusKnown
  | .softLimit | .hardLimit => true
  | _ => false

/-- The setting is out of reach of the allocator's setting itself up: either that does not write it, or it is over and
the program has given this setting a value only since. -/
def Settled (env : Env) (l : List Entry) (k : Key) : Prop :=
  setUpWrites env k = false ∨ ∃ after before, l = after ++ .inited :: before ∧ ∀ v, .wrote k v ∉ before

/-- Heap partitioning. -/
inductive Mode where
  | off | light | full
  deriving DecidableEq, Repr

end Verif.Settings
