/-
Model of the choice of active experiments: /repo/tcmalloc/experiment.cc, with the table of
/repo/tcmalloc/experiment_config.h.

Strings are lists of characters.  Modelled for builds without `NPX_COMPILER_ENABLED_EXPERIMENT`, in
which `IsCompilerExperiment` is constantly false (experiment.cc:52-58).  The two hashes used to pick
experiments for tests are arbitrary numbers.  The bounds of a rollout are rational numbers.  A
failed `assert` is `none`.
-/
namespace Verif.Experiments

abbrev Str := List Char

/-- `ExperimentConfig`, experiment_config.h:43-51.  `id` is the value of the enumerator. -/
structure Config where
  id : Nat
  name : Str
  brittle : Bool := false
  forceDisable : Bool := false
  lower : Rat := 0
  upper : Rat := 0
  salt : Str := []
  deriving DecidableEq

/-- `kEnableAll`, experiment.cc:49. -/
def kEnableAll : Str := "enable-all-known-experiments".toList
/-- `kDisableAll`, experiment.cc:50. -/
def kDisableAll : Str := "all".toList

/-- `LookupExperimentID`, experiment.cc:60-69; also `FindExperimentByName`, 278-286. -/
def lookup (tbl : List Config) (label : Str) : Option Nat :=
  (tbl.find? fun c => c.name == label).map (·.id)

/-- `string_view::find(c, pos)`. -/
def find (s : Str) (c : Char) (pos : Nat) : Option Nat :=
  ((s.drop pos).findIdx? (· == c)).map (· + pos)

/-- The loop of `ParseExperiments`, experiment.cc:91-107: the tokens passed to `f`, in order.
`fuel` bounds the iterations: there is at most one per character, and one more. -/
def parseFrom (labels : Str) : Nat → Nat → List Str
  | 0, _ => []
  | fuel + 1, pos =>
    match find labels ',' pos with
    | none => [labels.drop pos]
    | some e => (labels.drop pos).take (e - pos) :: parseFrom labels fuel (e + 1)

def parse (labels : Str) : List Str := parseFrom labels (labels.length + 1) 0

/-- `IsExperimentRolloutEnabled`, experiment.cc:122-143.  `bucket` is `CalculateRolloutBucket`. -/
def rolloutEnabled (bucket : Str → Str → Option Nat) (c : Config) (hostname : Str) : Bool :=
  if hostname.isEmpty then false
  else
    match bucket hostname (if c.salt.isEmpty then c.name else c.salt) with
    | none => false
    | some v =>
      let target : Rat := ((v / 2 ^ 11 : Nat) : Rat) / ((2 ^ 53 : Nat) : Rat)
      decide (c.lower ≤ target) && decide (target < c.upper)

/-- `CalculateRolloutBucket` as shipped, experiment.cc:115-119. -/
def noBucket : Str → Str → Option Nat := fun _ _ => none

/-- The rollouts, experiment.cc:154-160. -/
def applyRollouts (bucket : Str → Str → Option Nat) (hostname : Str) (tbl : List Config)
    (b : List Bool) : List Bool :=
  tbl.foldl (fun b c =>
    if c.upper > 0 then if rolloutEnabled bucket c hostname then b.set c.id true else b else b) b

/-- Setting the entry of every named experiment to `v`, experiment.cc:162-167 and 192-197. -/
def applyTokens (tbl : List Config) (v : Bool) (tokens : List Str) (b : List Bool) : List Bool :=
  tokens.foldl (fun b t =>
    match lookup tbl t with
    | some i => b.set i v
    | none => b) b

/-- Clearing the entries of the experiments that satisfy `p`, experiment.cc:182-190 and 245-249. -/
def clear (p : Config → Bool) (tbl : List Config) (b : List Bool) : List Bool :=
  tbl.foldl (fun b c => if p c then b.set c.id false else b) b

/-- One iteration of the loop that picks experiments for a test, experiment.cc:219-233: the
buffer, `num_enabled_experiments` and `experiment_id`. -/
def pickStep (h : Nat) (hn : Str → Nat) (st : List Bool × Nat × Option Nat) (c : Config) :
    List Bool × Nat × Option Nat :=
  if c.brittle then st
  else
    let enabled := (h ^^^ hn c.name) % 3 == 0
    (if enabled then st.1.set c.id true else st.1, st.2.1 + (if enabled then 1 else 0), some c.id)

/-- The choice for tests, experiment.cc:209-243, under `unset && !test_target.empty()`.  `h` is
`target_hash`, `hn` is `HashOf(config.name)`. -/
def pick (h : Nat) (hn : Str → Nat) (tbl : List Config) (b : List Bool) : Option (List Bool) :=
  if h % 11 != 0 then
    match tbl.foldl (pickStep h hn) (b, 0, none) with
    | (b', 0, some i) => if b'[i]? == some false then some (b'.set i true) else none
    | (b', _, _) => some b'
  else some b

/-- `SelectExperiments`, experiment.cc:145-250. -/
def select (n : Nat) (tbl : List Config) (bucket : Str → Str → Option Nat) (h : Nat)
    (hn : Str → Nat) (testTarget active disabled : Str) (unset : Bool) (hostname : Str) :
    Option (List Bool) :=
  let b := List.replicate n false
  let b := if active == kEnableAll then List.replicate n true else b
  let b := applyRollouts bucket hostname tbl b
  let b := applyTokens tbl true (parse active) b
  let b := if disabled == kDisableAll then clear (fun _ => true) tbl b else b
  let b := applyTokens tbl false (parse disabled) b
  let b' :=
    if unset && !testTarget.isEmpty then
      if active.isEmpty && disabled.isEmpty then pick h hn tbl b else none
    else some b
  b'.map (clear (fun c => c.forceDisable) tbl)

/-- What `GetSelectedExperiments`, experiment.cc:71-89, finds in the environment: the values of
`TEST_TARGET`, `BORG_EXPERIMENTS` and `BORG_DISABLE_EXPERIMENTS`. -/
structure Env where
  testTarget : Option Str
  experiments : Option Str
  disable : Option Str

/-- `GetSelectedExperiments`, experiment.cc:71-89, with `LookupHostname` as shipped (111-113). -/
def selected (n : Nat) (tbl : List Config) (bucket : Str → Str → Option Nat) (hostname : Str)
    (h : Nat) (hn : Str → Nat) (env : Env) : Option (List Bool) :=
  select n tbl bucket h hn (env.testTarget.getD []) (env.experiments.getD [])
    (env.disable.getD []) (env.experiments.isNone && env.disable.isNone) hostname

/-- `experiments[]`, experiment_config.h:54-70. -/
def table : List Config :=
  [{ id := 0, name := "TCMALLOC_HUGE_REGION_ADAPTIVE_RELEASE".toList },
   { id := 1, name := "TCMALLOC_PER_CPU_CACHE_SIZE_1MB".toList },
   { id := 2, name := "TCMALLOC_PGHO_EXPERIMENT".toList },
   { id := 3, name := "TCMALLOC_REUSE_SIZE_CLASSES_ABLATION".toList },
   { id := 4, name := "TCMALLOC_SONIC_MADV_NOHUGEPAGE_REGIONS".toList, lower := 0,
     upper := 1 / 100 },
   { id := 5, name := "TEST_ONLY_L3_AWARE".toList },
   { id := 6, name := "TEST_ONLY_MM_VCPU".toList },
   { id := 7, name := "TEST_ONLY_TCMALLOC_HEAP_PARTITIONING".toList },
   { id := 8, name := "TEST_ONLY_TCMALLOC_POW2_SIZECLASS".toList, brittle := true },
   { id := 9, name := "TEST_ONLY_TCMALLOC_RELEASE_STALE_PAGES".toList },
   { id := 10, name := "TEST_ONLY_TCMALLOC_SHARDED_TRANSFER_CACHE".toList, brittle := true },
   { id := 11, name := "TEST_ONLY_TCMALLOC_SUBRELEASE_UNBACKED_PAGES".toList }]

/-- `kNumExperiments`, experiment.h:45-46. -/
def kNumExperiments : Nat := 12

/-- `IsExperimentActive`, experiment.cc:267-275, in a process with this environment. -/
def isActive (h : Nat) (hn : Str → Nat) (env : Env) (i : Nat) : Option Bool :=
  (selected kNumExperiments table noBucket [] h hn env).bind fun b => b[i]?

/-- `WalkExperiments`, experiment.cc:288-293: the calls of `callback`. -/
def walk (h : Nat) (hn : Str → Nat) (env : Env) : List (Str × Option Bool) :=
  table.map fun c => (c.name, isActive h hn env c.id)

end Verif.Experiments
