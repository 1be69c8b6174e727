/-
Model of how a profile is turned into a `profile.proto` message:
/repo/tcmalloc/internal/profile_builder.{h,cc}.  Index tables are lists in order of insertion (a
hash map) or of key (a tree map).  `none` stands for a failed check or undefined behaviour.
Simplified: the sums of `int64_t` counts are unbounded; what the kernel says about a sample's pages
is given with the sample (C60 and C61 are about that); the list of loaded segments, with file names
and build ids, is an input; the analysis of compressibility is switched off in the code (:935).
-/
namespace Verif.ProfileProto

/-! ### The message, /repo/tcmalloc/internal/profile.proto -/

/-- `Label`: fields that are not set are 0. -/
structure Label where
  key : Nat
  str : Nat
  num : Int
  unit : Nat
  deriving DecidableEq, Repr

/-- `Sample`. -/
structure PSample where
  locs : List Nat
  values : List Int
  labels : List Label
  deriving DecidableEq, Repr

/-- `Location`: no mapping is 0. -/
structure Location where
  id : Nat
  addr : Nat
  mapping : Nat
  deriving DecidableEq, Repr

/-- `Mapping`. -/
structure Mapping where
  id : Nat
  start : Nat
  limit : Nat
  offset : Nat
  filename : Nat
  buildId : Nat
  deriving DecidableEq, Repr

/-- `Profile`. -/
structure Proto where
  strings : List String
  locations : List Location
  mappings : List Mapping
  samples : List PSample
  sampleTypes : List (Nat × Nat)
  periodType : Nat × Nat
  defaultType : Nat
  dropFrames : Nat
  duration : Int
  time : Option Int
  deriving DecidableEq, Repr

/-! ### A profile, /repo/tcmalloc/malloc_extension.h:128-132,149-181,194-316 -/

inductive Access where
  | hot | cold | doNotUse
  deriving DecidableEq, Repr

inductive Guarded where
  | largerThanOnePage | disabled | rateLimited | tooSmall | noAvailableSlots | mProtectFailed
  | filtered | unknown | notAttempted | requested | required | guarded
  deriving DecidableEq, Repr

inductive AllocType where
  | new | malloc | alignedMalloc
  deriving DecidableEq, Repr

inductive PType where
  | heap | fragmentation | peakHeap | allocations | lifetimes | eventTrace | doNotUse
  deriving DecidableEq, Repr

/-- What allocation and deallocation have in common: an id, and whether it matched. -/
structure Where where
  id : Option Int
  matched : Option Bool
  deriving DecidableEq, Repr

/-- `Profile::Sample`.  `stack` is the first `depth` frames. -/
structure Entry where
  count : Int
  sum : Int
  requested : Nat
  alignment : Option Nat
  allocated : Nat
  sizeReturning : Bool
  hint : Nat
  access : Access
  token : Nat
  guarded : Guarded
  type : AllocType
  stack : List Nat
  start : Nat
  censored : Bool
  handle : Nat
  profileId : Nat
  /-- In nanoseconds since the epoch. -/
  time : Int
  /-- In nanoseconds. -/
  avg : Int
  stddev : Int
  min : Int
  max : Int
  cpu : Where
  vcpu : Where
  l3 : Where
  numa : Where
  thread : Where
  deriving DecidableEq, Repr

/-- `PageStats`, internal/pageflags.h. -/
structure Flags where
  stale : Nat
  locked : Nat
  scan : Nat
  deriving DecidableEq, Repr

/-- An entry, with what `residency->Get` (resident and swapped bytes) and `pageflags->Get` return
for it; `none` also stands for a null pointer. -/
structure Info where
  entry : Entry
  res : Option (Nat × Nat)
  flags : Option Flags
  deriving DecidableEq, Repr

structure Segment where
  start : Nat
  limit : Nat
  offset : Nat
  filename : String
  buildId : String
  deriving DecidableEq, Repr

/-! ### The builder -/

structure Builder where
  p : Proto
  /-- `mappings_`, in the order of keys. -/
  mapIdx : List (Nat × Nat)
  strIdx : List (String × Nat)
  locIdx : List (Nat × Nat)

/-- `ProfileBuilder::ProfileBuilder`, :367-371. -/
def Builder.empty : Builder :=
  ⟨⟨[""], [], [], [], [], (0, 0), 0, 0, 0, none⟩, [], [], []⟩

/-- `InternString`, :373-386. -/
def Builder.internString (b : Builder) (s : String) : Builder × Nat :=
  if s = "" then (b, 0)
  else
    let index := b.p.strings.length
    match b.strIdx.lookup s with
    | some i => (b, i)
    | none =>
      ({ b with
        strIdx := (s, index) :: b.strIdx
        p := { b.p with strings := b.p.strings ++ [s] } }, index)

/-- The iterator of :405-408: `upper_bound`, and one back unless it is the beginning. -/
def Builder.iterator (b : Builder) (addr : Nat) : Option (Nat × Nat) :=
  let ub := b.mapIdx.findIdx fun e => decide (addr < e.1)
  b.mapIdx[if ub ≠ 0 then ub - 1 else ub]?

/-- The mapping set on a location, :400-420; 0 if none is. -/
def Builder.mappingOf (b : Builder) (addr : Nat) : Option Nat :=
  if b.mapIdx.isEmpty then some 0
  else
    match b.iterator addr with
    | none => none
    | some (first, index) =>
      match b.p.mappings[index]? with
      | none => none
      | some m =>
        -- TC_ASSERT
        if first ≠ m.start then none
        else if first ≤ addr ∧ addr < m.limit then some m.id else some 0

/-- `InternLocation`, :388-425. -/
def Builder.internLocation (b : Builder) (addr : Nat) : Option (Builder × Nat) :=
  let index := b.p.locations.length + 1
  match b.locIdx.lookup addr with
  | some i => some (b, i)
  | none =>
    match b.mappingOf addr with
    | none => none
    | some m =>
      some ({ b with
        locIdx := (addr, index) :: b.locIdx
        p := { b.p with locations := b.p.locations ++ [⟨index, addr, m⟩] } }, index)

/-- `InternCallstack`, :427-438. -/
def Builder.internStack : Builder → List Nat → Option (Builder × List Nat)
  | b, [] => some (b, [])
  | b, frame :: l =>
    match b.internLocation ((frame + (2 ^ 64 - 1)) % 2 ^ 64) with
    | none => none
    | some (b, id) =>
      match b.internStack l with
      | none => none
      | some (b, ids) => some (b, id :: ids)

/-- `mappings_.emplace`. -/
def emplace (key index : Nat) : List (Nat × Nat) → List (Nat × Nat)
  | [] => [(key, index)]
  | e :: l =>
    if key < e.1 then (key, index) :: e :: l
    else if key = e.1 then e :: l
    else e :: emplace key index l

/-- `AddMapping`, :509-524. -/
def Builder.addMapping (b : Builder) (g : Segment) : Builder :=
  let id := b.p.mappings.length + 1
  let (b, filename) := b.internString g.filename
  let (b, buildId) := b.internString g.buildId
  { b with
    p := { b.p with
      mappings := b.p.mappings ++ [⟨id, g.start, g.limit, g.offset, filename, buildId⟩] }
    mapIdx := emplace g.start (id - 1) b.mapIdx }

/-- `AddCurrentMappings`, :440-507, for the segments it finds. -/
def Builder.addMappings (b : Builder) (l : List Segment) : Builder := l.foldl Builder.addMapping b

/-- Constants `…_id`, each the result of `InternString`, defined one after the other. -/
def Builder.internList : Builder → List String → Builder × List (String × Nat)
  | b, [] => (b, [])
  | b, s :: l =>
    let (b, i) := b.internString s
    let (b, r) := b.internList l
    (b, (s, i) :: r)

/-- The constant for a string. -/
def idOf (ids : List (String × Nat)) (s : String) : Nat := (ids.lookup s).getD 0

/-! ### Labels -/

/-- A `size_t` stored in an `int64` field. -/
def toI64 (v : Nat) : Int :=
  if v % 2 ^ 64 < 2 ^ 63 then (v % 2 ^ 64 : Nat) else ((v % 2 ^ 64 : Nat) : Int) - 2 ^ 64

/-- A signed value converted to `size_t`. -/
def toSize (v : Int) : Nat := (v % 2 ^ 64).toNat

/-- `add_label`, :544-549. -/
def numLabel (key unit value : Nat) : Label := ⟨key, 0, toI64 value, unit⟩

/-- `add_positive_label`, :551-554. -/
def posLabel (key unit value : Nat) : List Label :=
  if value = 0 then [] else [numLabel key unit value]

/-- A label with a string. -/
def strLabel (key str : Nat) : Label := ⟨key, str, 0, 0⟩

/-- :529-541 -/
def tagNames : List String :=
  ["alignment", "bytes", "request", "size_returning", "access_hint", "access_allocated", "cold",
   "hot", "token_id", "allocation type", "new", "malloc", "aligned malloc"]

/-- :605-615 -/
def guardNames : List String :=
  ["guarded_status", "LargerThanOnePage", "Disabled", "RateLimited", "NoAvailableSlots",
   "MProtectFailed", "Filtered", "NotAttempted", "Requested", "Required", "Guarded"]

/-- :564-582 -/
def accessLabel (v : String → Nat) : Access → List Label
  | .hot => [strLabel (v "access_allocated") (v "hot")]
  | .cold => [strLabel (v "access_allocated") (v "cold")]
  | .doNotUse => []

/-- :590-603 -/
def typeLabel (v : String → Nat) : AllocType → Label
  | .new => strLabel (v "allocation type") (v "new")
  | .malloc => strLabel (v "allocation type") (v "malloc")
  | .alignedMalloc => strLabel (v "allocation type") (v "aligned malloc")

/-- :617-652; the last two are not reachable according to the code. -/
def guardLabel (v : String → Nat) : Guarded → Option Label
  | .largerThanOnePage => some (strLabel (v "guarded_status") (v "LargerThanOnePage"))
  | .disabled => some (strLabel (v "guarded_status") (v "Disabled"))
  | .rateLimited => some (strLabel (v "guarded_status") (v "RateLimited"))
  | .noAvailableSlots => some (strLabel (v "guarded_status") (v "NoAvailableSlots"))
  | .mProtectFailed => some (strLabel (v "guarded_status") (v "MProtectFailed"))
  | .filtered => some (strLabel (v "guarded_status") (v "Filtered"))
  | .notAttempted => some (strLabel (v "guarded_status") (v "NotAttempted"))
  | .requested => some (strLabel (v "guarded_status") (v "Requested"))
  | .required => some (strLabel (v "guarded_status") (v "Required"))
  | .guarded => some (strLabel (v "guarded_status") (v "Guarded"))
  | .tooSmall => none
  | .unknown => none

/-- `AddCommonSampleTags`, :526-653: the builder and the labels added. -/
def commonTags (b : Builder) (e : Entry) : Option (Builder × List Label) :=
  let (b, ids) := b.internList tagNames
  let v := idOf ids
  let l := posLabel (v "bytes") (v "bytes") e.allocated ++
    posLabel (v "request") (v "bytes") e.requested ++
    (match e.alignment with
      | some a => posLabel (v "alignment") (v "bytes") a
      | none => []) ++
    posLabel (v "size_returning") 0 (if e.sizeReturning then 1 else 0) ++
    [numLabel (v "access_hint") (v "access_hint") e.hint] ++
    accessLabel v e.access ++
    [numLabel (v "token_id") (v "token_id") e.token] ++
    [typeLabel v e.type]
  let (b, ids) := b.internList guardNames
  match guardLabel (idOf ids) e.guarded with
  | none => none
  | some g => some (b, l ++ [g])

/-! ### Merging, :107-233 -/

/-- The fields that `SampleEqWithSubFields` and `SampleHashWithSubFields` look at, :121-142. -/
structure Key where
  requested : Nat
  alignment : Option Nat
  sizeReturning : Bool
  allocated : Nat
  hint : Nat
  access : Access
  token : Nat
  guarded : Guarded
  type : AllocType
  stack : List Nat
  deriving DecidableEq, Repr

def keyOf (e : Entry) : Key :=
  ⟨e.requested, e.alignment, e.sizeReturning, e.allocated, e.hint, e.access, e.token, e.guarded,
   e.type, e.stack⟩

/-- `SampleMergedData`, :107-117, without the analysis of compressibility. -/
structure Data where
  count : Int
  sum : Int
  resident : Option Nat
  swapped : Option Nat
  stale : Option Nat
  locked : Option Nat
  scan : Option Nat
  deriving DecidableEq, Repr

def Data.empty : Data := ⟨0, 0, none, none, none, none, none⟩

/-- `size_t` arithmetic: `entry.count * bytes`. -/
def times (count : Int) (bytes : Nat) : Nat := toSize (count * bytes)

/-- `size_t` addition to an optional that may be empty. -/
def bump (o : Option Nat) (v : Nat) : Option Nat :=
  match o with
  | none => some v
  | some x => some ((x + v) % 2 ^ 64)

/-- :156-214 -/
def Data.add (d : Data) (i : Info) : Data :=
  let d := { d with count := d.count + i.entry.count, sum := d.sum + i.entry.sum }
  let d := match i.res with
    | none => d
    | some (resident, swapped) =>
      { d with
        resident := bump d.resident (times i.entry.count resident)
        swapped := bump d.swapped (times i.entry.count swapped) }
  match i.flags with
  | none => d
  | some f =>
    { d with
      stale := bump d.stale (times i.entry.count f.stale)
      locked := bump d.locked (times i.entry.count f.locked)
      scan := match d.scan with
        | none => some f.scan
        | some s => if s ≠ f.scan then some 0 else some s }

/-- `map[entry]`, and what is done with it: the map keeps the first entry of each key. -/
def mergeOne : List (Entry × Data) → Info → List (Entry × Data)
  | [], i => [(i.entry, Data.empty.add i)]
  | (e, d) :: l, i =>
    if keyOf e = keyOf i.entry then (e, d.add i) :: l else (e, d) :: mergeOne l i

/-- `MergeProfileSamplesAndMaybeGetResidencyInfo`, :148-233. -/
def merge (l : List Info) : List (Entry × Data) := l.foldl mergeOne []

/-! ### Heap, peak heap and allocation profiles -/

def kMaxStackDepth : Nat := 64

/-- :868-879 -/
def heapNames : List String :=
  ["bytes", "count", "objects", "stale_scan_period", "seconds", "space", "resident_space",
   "swapped_space", "stale_space", "locked_space", "space_compressed", "zero_space"]

/-- :955-991, for one entry of the map. -/
def heapSample (v : String → Nat) (residency : Bool) (b : Builder) (e : Entry) (d : Data) :
    Option Builder :=
  if kMaxStackDepth < e.stack.length then none
  else
    match b.internStack e.stack with
    | none => none
    | some (b, locs) =>
      let values := [d.count, d.sum] ++
        (if residency then
          [toI64 (d.resident.getD 0), toI64 (d.swapped.getD 0), toI64 (d.stale.getD 0),
           toI64 (d.locked.getD 0)]
         else [])
      match commonTags b e with
      | none => none
      | some (b, labels) =>
        let labels := labels ++
          posLabel (v "stale_scan_period") (v "seconds") (d.scan.getD 0)
        some { b with p := { b.p with samples := b.p.samples ++ [⟨locs, values, labels⟩] } }

def heapSamples (v : String → Nat) (residency : Bool) :
    Builder → List (Entry × Data) → Option Builder
  | b, [] => some b
  | b, (e, d) :: l =>
    match heapSample v residency b e d with
    | none => none
    | some b => heapSamples v residency b l

/-! ### Lifetime profiles and event traces, :655-833 -/

/-- :664-669 -/
def lifetimeTypes : List (String × String) :=
  [("allocated_objects", "count"), ("allocated_space", "bytes"), ("deallocated_objects", "count"),
   ("deallocated_space", "bytes"), ("censored_allocated_objects", "count"),
   ("censored_allocated_space", "bytes")]

/-- `add_sample_type` for each. -/
def Builder.addTypes : Builder → List (String × String) → Builder
  | b, [] => b
  | b, (type, unit) :: l =>
    let (b, t) := b.internString type
    let (b, u) := b.internString unit
    { b with p := { b.p with sampleTypes := b.p.sampleTypes ++ [(t, u)] } }.addTypes l

/-- :685-713 -/
def lifetimeNames : List String :=
  ["count", "nanoseconds", "cpu_id", "active CPU", "vcpu_id", "active vCPU", "l3_id", "active L3",
   "numa_id", "active NUMA", "thread_id", "active thread", "avg_lifetime", "stddev_lifetime",
   "min_lifetime", "max_lifetime", "same", "different", "none", "callstack-pair-id", "bytes",
   "alloc_handle", "allocation_time", "deallocation_time", "requested_size"]

/-- `add_optional_int_label` and `add_optional_string_label`, :734-753. -/
def whereLabels (v : String → Nat) (idName activeName : String) (w : Where) : List Label :=
  (match w.id with
    | some x => [numLabel (v idName) 0 (toSize x)]
    | none => []) ++
  [match w.matched with
    | none => strLabel (v activeName) (v "none")
    | some true => strLabel (v activeName) (v "same")
    | some false => strLabel (v activeName) (v "different")]

/-- :757-806 -/
def lifetimeLabels (v : String → Nat) (e : Entry) : List Label :=
  posLabel (v "callstack-pair-id") (v "count") e.profileId ++
  posLabel (v "avg_lifetime") (v "nanoseconds") (toSize e.avg) ++
  posLabel (v "stddev_lifetime") (v "nanoseconds") (toSize e.stddev) ++
  posLabel (v "min_lifetime") (v "nanoseconds") (toSize e.min) ++
  posLabel (v "max_lifetime") (v "nanoseconds") (toSize e.max) ++
  whereLabels v "cpu_id" "active CPU" e.cpu ++
  whereLabels v "vcpu_id" "active vCPU" e.vcpu ++
  whereLabels v "l3_id" "active L3" e.l3 ++
  whereLabels v "numa_id" "active NUMA" e.numa ++
  whereLabels v "thread_id" "active thread" e.thread ++
  (if e.handle ≠ 0 then [numLabel (v "alloc_handle") (v "count") e.handle] else []) ++
  (if e.time > 0 then
    if e.count < 0 then
      [numLabel (v "deallocation_time") (v "nanoseconds") (toSize e.time)]
    else
      [numLabel (v "allocation_time") (v "nanoseconds") (toSize e.time),
       numLabel (v "requested_size") (v "bytes") e.requested]
   else [])

/-- :786-787,808-832 -/
def lifetimeValues (e : Entry) : List Int :=
  let count := (e.count.natAbs : Int)
  if e.censored then [0, 0, 0, 0, count, e.sum]
  else if e.count > 0 then [count, e.sum, 0, 0, 0, 0]
  else [0, 0, count, e.sum, 0, 0]

/-- :715-833, for one entry. -/
def lifetimeSample (v : String → Nat) (b : Builder) (e : Entry) : Option Builder :=
  if kMaxStackDepth < e.stack.length then none
  else
    match b.internStack e.stack with
    | none => none
    | some (b, locs) =>
      match commonTags b e with
      | none => none
      | some (b, labels) =>
        some { b with p := { b.p with
          samples := b.p.samples ++ [⟨locs, lifetimeValues e, labels ++ lifetimeLabels v e⟩] } }

def lifetimeSamples (v : String → Nat) : Builder → List Entry → Option Builder
  | b, [] => some b
  | b, e :: l =>
    match lifetimeSample v b e with
    | none => none
    | some b => lifetimeSamples v b l

/-- A profile: its type, the time it began if known and its duration in nanoseconds, and what
`Iterate` visits. -/
structure Profile where
  type : PType
  time : Option Int
  duration : Int
  infos : List Info
  deriving DecidableEq, Repr

/-- `MakeLifetimeProfileProto`, :655-836. -/
def makeLifetime (drop : String) (b : Builder) (f : Profile) : Option Builder :=
  let (b, space) := b.internString "space"
  let (b, bytes) := b.internString "bytes"
  let b := { b with p := { b.p with periodType := (space, bytes) } }
  let b := b.addTypes lifetimeTypes
  let (b, dflt) := b.internString "deallocated_space"
  let (b, dropId) := b.internString drop
  let b := { b with p := { b.p with
    defaultType := dflt, duration := f.duration, time := f.time, dropFrames := dropId } }
  let (b, ids) := b.internList lifetimeNames
  lifetimeSamples (idOf ids) b (f.infos.map Info.entry)

inductive Out where
  /-- A check fails, or undefined behaviour. -/
  | fail
  /-- `InvalidArgumentError` -/
  | error
  | ok (p : Proto)
  deriving DecidableEq, Repr

def Out.of : Option Builder → Out
  | none => .fail
  | some b => .ok b.p

/-- The default sample type, :935-948; other types are an error. -/
def defaultOf (v : String → Nat) : PType → Option Nat
  | .heap | .peakHeap => some (v "space")
  | .allocations => some (v "objects")
  | _ => none

/-- The rest of `MakeProfileProto`, :868-993.  `order` is the order in which the hash map is
iterated over. -/
def makeHeap (drop : String) (order : List (Entry × Data) → List (Entry × Data)) (b : Builder)
    (f : Profile) : Out :=
  let (b, ids) := b.internList heapNames
  let v := idOf ids
  let (b, dropId) := b.internString drop
  let residency := decide (f.type = .heap)
  let types := [(v "objects", v "count"), (v "space", v "bytes")] ++
    (if residency then
      [(v "resident_space", v "bytes"), (v "swapped_space", v "bytes"),
       (v "stale_space", v "bytes"), (v "locked_space", v "bytes")]
     else [])
  match defaultOf v f.type with
  | none => .error
  | some dflt =>
    let b := { b with p := { b.p with
      periodType := (v "space", v "bytes"), dropFrames := dropId, duration := f.duration
      time := f.time, sampleTypes := types, defaultType := dflt } }
    .of (heapSamples v residency b (order (merge f.infos)))

/-- `MakeProfileProto`, :839-994. -/
def makeProto (drop : String) (order : List (Entry × Data) → List (Entry × Data))
    (segments : List Segment) (f : Profile) : Out :=
  if f.type = .doNotUse then .error
  else
    let b := Builder.empty.addMappings segments
    if f.type = .lifetimes ∨ f.type = .eventTrace then .of (makeLifetime drop b f)
    else makeHeap drop order b f

end Verif.ProfileProto
