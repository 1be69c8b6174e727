import Verif.ProfileProto.Model
/-
What a reader of a profile message sees, and what it should see.
-/
namespace Verif.ProfileProto

/-! ### Reading a message: every number in it is replaced by what it stands for -/

structure PlainLabel where
  key : String
  str : String
  num : Int
  unit : String
  deriving DecidableEq, Repr

structure PlainSample where
  /-- Addresses of calls. -/
  stack : List Nat
  values : List Int
  labels : List PlainLabel
  deriving DecidableEq, Repr

structure Plain where
  periodType : String × String
  sampleTypes : List (String × String)
  defaultType : String
  dropFrames : String
  duration : Int
  time : Option Int
  segments : List Segment
  samples : List PlainSample
  deriving DecidableEq, Repr

def readAll (f : α → Option β) : List α → Option (List β)
  | [] => some []
  | a :: l =>
    match f a, readAll f l with
    | some b, some r => some (b :: r)
    | _, _ => none

def readPair (p : Proto) (x : Nat × Nat) : Option (String × String) :=
  match p.strings[x.1]?, p.strings[x.2]? with
  | some a, some b => some (a, b)
  | _, _ => none

def readLabel (p : Proto) (l : Label) : Option PlainLabel :=
  match p.strings[l.key]?, p.strings[l.str]?, p.strings[l.unit]? with
  | some k, some s, some u => some ⟨k, s, l.num, u⟩
  | _, _, _ => none

/-- A location is found by its id. -/
def readLoc (p : Proto) (id : Nat) : Option Nat :=
  (p.locations.find? fun l => l.id = id).map Location.addr

def readSample (p : Proto) (s : PSample) : Option PlainSample :=
  match readAll (readLoc p) s.locs, readAll (readLabel p) s.labels with
  | some stack, some labels => some ⟨stack, s.values, labels⟩
  | _, _ => none

def readMapping (p : Proto) (m : Mapping) : Option Segment :=
  match p.strings[m.filename]?, p.strings[m.buildId]? with
  | some f, some i => some ⟨m.start, m.limit, m.offset, f, i⟩
  | _, _ => none

def read (p : Proto) : Option Plain :=
  match readPair p p.periodType, readAll (readPair p) p.sampleTypes, p.strings[p.defaultType]?,
    p.strings[p.dropFrames]?, readAll (readMapping p) p.mappings,
    readAll (readSample p) p.samples with
  | some a, some b, some c, some d, some e, some g =>
    some ⟨a, b, c, d, p.duration, p.time, e, g⟩
  | _, _, _, _, _, _ => none

/-! ### What should be there -/

/-- The address of a call: one before the return address. -/
def callOf (frame : Nat) : Nat := if frame = 0 then 2 ^ 64 - 1 else frame - 1

/-- A number modulo `2 ^ 64` read as a signed one. -/
def signed (v : Int) : Int := if v % 2 ^ 64 < 2 ^ 63 then v % 2 ^ 64 else v % 2 ^ 64 - 2 ^ 64

def num (key unit : String) (v : Int) : PlainLabel := ⟨key, "", signed v, unit⟩
def text (key str : String) : PlainLabel := ⟨key, str, 0, ""⟩
/-- Not listed if zero. -/
def opt (key unit : String) (v : Int) : List PlainLabel :=
  if v % 2 ^ 64 = 0 then [] else [num key unit v]

def accessName : Access → List PlainLabel
  | .hot => [text "access_allocated" "hot"]
  | .cold => [text "access_allocated" "cold"]
  | .doNotUse => []

def typeName : AllocType → String
  | .new => "new"
  | .malloc => "malloc"
  | .alignedMalloc => "aligned malloc"

def guardName : Guarded → Option String
  | .largerThanOnePage => some "LargerThanOnePage"
  | .disabled => some "Disabled"
  | .rateLimited => some "RateLimited"
  | .noAvailableSlots => some "NoAvailableSlots"
  | .mProtectFailed => some "MProtectFailed"
  | .filtered => some "Filtered"
  | .notAttempted => some "NotAttempted"
  | .requested => some "Requested"
  | .required => some "Required"
  | .guarded => some "Guarded"
  | .tooSmall => none
  | .unknown => none

/-- An entry the code can be given: not too deep, no deprecated status, and sizes of a machine
word. -/
structure Valid (e : Entry) : Prop where
  depth : e.stack.length ≤ 64
  status : (guardName e.guarded).isSome
  frames : ∀ x ∈ e.stack, x < 2 ^ 64
  allocated : e.allocated < 2 ^ 64
  requested : e.requested < 2 ^ 64
  alignment : ∀ a, e.alignment = some a → a < 2 ^ 64
  profileId : e.profileId < 2 ^ 64

/-- The labels that describe an allocation. -/
def plainTags (k : Key) : List PlainLabel :=
  opt "bytes" "bytes" k.allocated ++ opt "request" "bytes" k.requested ++
  (match k.alignment with
    | some a => opt "alignment" "bytes" a
    | none => []) ++
  (if k.sizeReturning then [num "size_returning" "" 1] else []) ++
  [num "access_hint" "access_hint" k.hint] ++ accessName k.access ++
  [num "token_id" "token_id" k.token, text "allocation type" (typeName k.type),
   text "guarded_status" ((guardName k.guarded).getD "")]

/-- The sum of `f` over the entries of kind `k`. -/
def sumOver (k : Key) (f : Info → Int) (l : List Info) : Int :=
  ((l.filter fun i => keyOf i.entry = k).map f).sum

/-- The scan period, if there is one that all the answers about entries of kind `k` agree on. -/
def scanPeriod (k : Key) (l : List Info) : Nat :=
  match (l.filter fun i => keyOf i.entry = k).filterMap fun i => i.flags.map Flags.scan with
  | [] => 0
  | s :: r => if r.all (· == s) then s else 0

/-- The one sample for all entries of kind `k`. -/
def plainHeap (residency : Bool) (l : List Info) (k : Key) : PlainSample where
  stack := k.stack.map callOf
  values := [sumOver k (·.entry.count) l, sumOver k (·.entry.sum) l] ++
    if residency then
      [signed (sumOver k (fun i => i.entry.count * (i.res.map (·.1)).getD 0) l),
       signed (sumOver k (fun i => i.entry.count * (i.res.map (·.2)).getD 0) l),
       signed (sumOver k (fun i => i.entry.count * (i.flags.map Flags.stale).getD 0) l),
       signed (sumOver k (fun i => i.entry.count * (i.flags.map Flags.locked).getD 0) l)]
    else []
  labels := plainTags k ++ opt "stale_scan_period" "seconds" (scanPeriod k l)

def plainWhere (idName activeName : String) (w : Where) : List PlainLabel :=
  (match w.id with
    | some x => [num idName "" x]
    | none => []) ++
  [text activeName (match w.matched with
    | none => "none"
    | some true => "same"
    | some false => "different")]

/-- The sample for an entry of a lifetime profile or an event trace. -/
def plainLifetime (e : Entry) : PlainSample where
  stack := e.stack.map callOf
  values :=
    if e.censored then [0, 0, 0, 0, e.count.natAbs, e.sum]
    else if 0 < e.count then [e.count, e.sum, 0, 0, 0, 0]
    else [0, 0, -e.count, e.sum, 0, 0]
  labels := plainTags (keyOf e) ++ opt "callstack-pair-id" "count" e.profileId ++
    opt "avg_lifetime" "nanoseconds" e.avg ++ opt "stddev_lifetime" "nanoseconds" e.stddev ++
    opt "min_lifetime" "nanoseconds" e.min ++ opt "max_lifetime" "nanoseconds" e.max ++
    plainWhere "cpu_id" "active CPU" e.cpu ++ plainWhere "vcpu_id" "active vCPU" e.vcpu ++
    plainWhere "l3_id" "active L3" e.l3 ++ plainWhere "numa_id" "active NUMA" e.numa ++
    plainWhere "thread_id" "active thread" e.thread ++
    (if e.handle = 0 then [] else [num "alloc_handle" "count" e.handle]) ++
    (if e.time ≤ 0 then []
     else if e.count < 0 then [num "deallocation_time" "nanoseconds" e.time]
     else [num "allocation_time" "nanoseconds" e.time, num "requested_size" "bytes" e.requested])

end Verif.ProfileProto
