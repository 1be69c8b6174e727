import Verif.Span.Spec
import Verif.HintedLists.Model
/-!
Model of /repo/tcmalloc/central_freelist.h and central_freelist.cc: the central free list of one size
class.  The default build is modelled (`TCMALLOC_INTERNAL_LEGACY_LOCKING` not defined).

Spans are named by their first page.  The free list inside each span is the model of `Verif/Span`
(word-accurate, all spans sharing one memory); the eight `nonempty_` lists are the model of
`Verif/HintedLists`.

Concurrency.  Everything `InsertRange` and `RemoveRange` do under `lock_` is one step.  `Populate` drops
the lock around the call of the page heap (central_freelist.h:796-811), so a `RemoveRange` that finds no
span is split in two: `remove` leaves a pending call holding the objects it already has, and `populate`
finishes it; any steps of other threads may come in between.  `BuildFreelist` runs between `unlock` and
`lock` on a span nobody else knows of, and is done in the same step as what follows it.  The mapping of
objects to spans and to indices, done before taking the lock (central_freelist.h:597, 625-634), reads only
data that does not change while the objects are held.  `DeallocateSpans` runs after the lock is dropped; the
spans it is called on are an output of `insert`.

Not modelled: the hooks, the life-time histogram, `num_same_spans_` and `span_allocations_tracker_`
(histograms of batch shapes), time.  `none` stands for a failed assertion, an `ASSUME` violated or an array
index out of bounds.
-/
namespace Verif.CentralFreeList
open Verif.Span (Geo Mem)
open Verif.HintedLists (HL)

/-- central_freelist.h:128. -/
def kNumLists : Nat := 8
/-- central_freelist.h:348. -/
def kSpanUtilBucketCapacity : Nat := 16
/-- common.h:208. -/
def kMaxObjectsToMove : Nat := 128

/-- The span starting at page `p` of the class whose constants are in `k` (object size, objects per span,
pages per span: central_freelist.h:424-433). -/
def spanAt (k : Geo) (p : Nat) : Geo := { k with firstPage := p }

/-- `absl::bit_width`. -/
def bitWidth (n : Nat) : Nat := if n = 0 then 0 else Nat.log2 n + 1

/-- `IndexFor`, central_freelist.h:534-577 (`none`: `ASSUME(allocated > 0)`, `ASSUME(bitwidth > 0)`). -/
def indexFor (k : Geo) (allocated bitwidth : Nat) : Option Nat :=
  if allocated = 0 then none
  else if k.count ≤ 2 * kNumLists then
    some (if allocated ≤ kNumLists then kNumLists - allocated else 0)
  else if bitwidth = 0 then none
  else some (kNumLists - min bitwidth kNumLists)

/-- A `RemoveRange` that is inside `Populate`, without the lock: the objects already in its batch, and how
many more would fit. -/
structure Pend where
  got : List Nat
  want : Nat
deriving DecidableEq

/-- The fields of `CentralFreeList` (central_freelist.h:266-396), of the spans of this class (`st`, `idx`
by first page), the part of the page map that concerns this class (`map`: page to first page of the span
registered there with this size class), and memory. -/
structure Cfl where
  st : Nat → Span.St
  idx : Nat → Nat
  hl : HL
  counter : Int
  requested : Nat
  returned : Nat
  hist : Nat → Int
  map : Nat → Option Nat
  w : Mem
  pend : List Pend

/-- The constructor and `Init`, central_freelist.h:167-180, 417-449; old memory contents are arbitrary. -/
def init (w : Mem) : Cfl :=
  { st := fun _ => ⟨0, [], 0, 0, []⟩, idx := fun _ => 0, hl := HL.new kNumLists, counter := 0,
    requested := 0, returned := 0, hist := fun _ => 0, map := fun _ => none, w := w, pend := [] }

def upd {α : Type} (f : Nat → α) (p : Nat) (v : α) : Nat → α := fun q => if q = p then v else f q

/-- `RecordSpanUtil`, central_freelist.h:278-284. -/
def recordSpanUtil (c : Cfl) (bitwidth : Nat) (increase : Bool) : Option Cfl :=
  if 0 < bitwidth ∧ bitwidth - 1 < kSpanUtilBucketCapacity then
    some { c with hist := upd c.hist (bitwidth - 1) (c.hist (bitwidth - 1) + if increase then 1 else -1) }
  else none

/-- The two calls of `RecordSpanUtil` when a span's utilisation changed, central_freelist.h:490-493 and
750-753. -/
def recordChange (c : Cfl) (prev cur : Nat) : Option Cfl :=
  if cur ≠ prev then (recordSpanUtil c prev false).bind fun c => recordSpanUtil c cur true else some c

/-- `ReleaseToSpans` with `T = ObjIdx`, central_freelist.h:451-511; the flag says whether the span is
returned (it became completely free). -/
def releaseToSpans (k : Geo) (c : Cfl) (p : Nat) (batch : List Nat) : Option (Cfl × Bool) :=
  let s := c.st p
  let wasEmpty := Span.freelistEmpty (spanAt k p) s
  let prevIndex := c.idx p
  let prevBw := bitWidth s.alloc
  match Span.pushBatchIdx (spanAt k p) s c.w batch with
  | none => none
  | some (false, _, _) =>
    (recordSpanUtil c prevBw false).bind fun c =>
      if wasEmpty then some (c, true)
      else (HintedLists.remove kNumLists c.hl p prevIndex).map fun hl => ({ c with hl := hl }, true)
  | some (true, s', w') =>
    let cur := s.alloc - batch.length
    if cur ≠ s'.alloc then none
    else
      let curBw := bitWidth cur
      (recordChange { c with st := upd c.st p s', w := w' } prevBw curBw).bind fun c =>
        (indexFor k cur curBw).bind fun curIndex =>
          if wasEmpty then
            (HintedLists.add kNumLists c.hl p curIndex).map fun hl =>
              ({ c with hl := hl, idx := upd c.idx p curIndex }, false)
          else if curIndex ≠ prevIndex then
            (HintedLists.move kNumLists c.hl p prevIndex curIndex).map fun hl =>
              ({ c with hl := hl, idx := upd c.idx p curIndex }, false)
          else some (c, false)

/-- The loop of `RecordSameSpanRuns`, central_freelist.h:147-160; `runs` is the array of run lengths. -/
def runsLoop : List Nat → Nat → Nat → Nat → List Nat → List Nat
  | [], i, runStart, _, runs => runs.set runStart (i - runStart)
  | next :: rest, i, runStart, last, runs =>
    if last = next then runsLoop rest (i + 1) runStart last runs
    else runsLoop rest (i + 1) i next (runs.set runStart (i - runStart))

/-- `RecordSameSpanRuns`, central_freelist.h:138-161.  The array is not initialised in the code; here it
holds zeros, and a zero read back is a violated `ASSUME` (central_freelist.h:654). -/
def recordSameSpanRuns : List Nat → Option (List Nat)
  | [] => none
  | s :: rest => some (runsLoop rest 1 0 s (List.replicate (rest.length + 1) 0))

/-- The loop of `InsertRange` under the lock, central_freelist.h:648-665.  `spans` is the array of the
batch's spans, whose used-up front is reused for the spans that became free (`free_spans`, 638).  `fuel`
only makes the recursion structural: each turn advances `i`. -/
def insertLoop (k : Geo) (runs idx : List Nat) (n : Nat) :
    Nat → Cfl → List Nat → Nat → Nat → Option (Cfl × List Nat)
  | 0, c, spans, fc, i => if i < n then none else some (c, spans.take fc)
  | fuel + 1, c, spans, fc, i =>
    if i < n then
      match runs[i]?, spans[i]? with
      | some step, some p =>
        if step = 0 then none
        else
          match releaseToSpans k c p ((idx.drop i).take step) with
          | none => none
          | some (c, true) => insertLoop k runs idx n fuel c (spans.set fc p) (fc + 1) (i + step)
          | some (c, false) => insertLoop k runs idx n fuel c spans fc (i + step)
      | _, _ => none
    else some (c, spans.take fc)

/-- `MapObjectsToSpans`, central_freelist.cc:92-113; a page not registered with this size class is
reported as a corrupted, double or mismatched free (`none`). -/
def mapObjects (k : Geo) (c : Cfl) : List Nat → Option (List Nat)
  | [] => some []
  | a :: as =>
    match c.map (a / 2 ^ k.pageShift), mapObjects k c as with
    | some p, some ps => some (p :: ps)
    | _, _ => none

/-- `UnregisterSizeClass` on the freed spans, central_freelist.cc:172 (pagemap.cc `UnregisterSizeClass`). -/
def unregister (c : Cfl) (freed : List Nat) : Cfl :=
  { c with map := fun a => match c.map a with | some p => if p ∈ freed then none else some p | none => none }

/-- `InsertRange`, central_freelist.h:587-675: the new state and the spans given to `DeallocateSpans`
(whose assertions on their number, central_freelist.cc:165-166, are checked here). -/
def insert (k : Geo) (c : Cfl) (batch : List Nat) : Option (Cfl × List Nat) :=
  if batch.length = 0 ∨ kMaxObjectsToMove < batch.length then none
  else
    match mapObjects k c batch with
    | none => none
    | some spans =>
      if k.count = 1 then some (unregister c spans, spans)
      else
        match recordSameSpanRuns spans with
        | none => none
        | some runs =>
          match insertLoop k runs ((batch.zip spans).map fun (a, p) => Span.objIdx (spanAt k p) a)
              batch.length batch.length c spans 0 0 with
          | none => none
          | some (c, freed) =>
            if kMaxObjectsToMove < freed.length then none
            else
              some (unregister { c with
                counter := c.counter - (freed.length * k.count : Nat) + (batch.length : Nat),
                returned := c.returned + freed.length } freed, freed)

/-- How the locked part of a `RemoveRange` ends: with its batch full, or about to drop the lock in
`Populate`. -/
inductive Rem
  | full (got : List Nat)
  | wait (got : List Nat) (want : Nat)

/-- The loop of `RemoveRange`, central_freelist.h:715-772; `got` is `batch[0..result)`, `want` the rest of
the batch.  `fuel` only makes the recursion structural: each turn takes an object. -/
def removeLoop (k : Geo) : Nat → Cfl → List Nat → Nat → Option (Cfl × Rem)
  | 0, _, _, _ => none
  | fuel + 1, c, got, want =>
    match HintedLists.peekLeast kNumLists c.hl 0 with
    | none => none
    | some none => some (c, .wait got want)
    | some (some (p, prevIndex)) =>
      let s := c.st p
      if s.alloc = 0 ∨ prevIndex ≠ c.idx p then none
      else
        match Span.popBatch (spanAt k p) s c.w want with
        | none => none
        | some (s', here) =>
          if here.length = 0 ∨ s.alloc + here.length ≠ s'.alloc then none
          else
            let cur := s.alloc + here.length
            match recordChange { c with st := upd c.st p s' } (bitWidth s.alloc) (bitWidth cur) with
            | none => none
            | some c =>
              match (if Span.freelistEmpty (spanAt k p) s' then
                  (HintedLists.remove kNumLists c.hl p prevIndex).map fun hl => { c with hl := hl }
                else (indexFor k cur (bitWidth cur)).bind fun curIndex =>
                  if curIndex ≠ prevIndex then
                    (HintedLists.move kNumLists c.hl p prevIndex curIndex).map fun hl =>
                      { c with hl := hl, idx := upd c.idx p curIndex }
                  else some c) with
              | none => none
              | some c =>
                if want - here.length = 0 then some (c, .full (got ++ here))
                else removeLoop k fuel c (got ++ here) (want - here.length)

/-- `RemoveRange` up to its end or up to `Populate`'s `unlock` (or, for one object per span, up to the
call of the page heap): central_freelist.h:694-779, 796.  `some` list: the call returned it. -/
def remove (k : Geo) (c : Cfl) (n : Nat) : Option (Cfl × Option (List Nat)) :=
  if n = 0 ∨ kMaxObjectsToMove < n then none
  else if k.count = 1 then some ({ c with pend := ⟨[], n⟩ :: c.pend }, none)
  else
    match removeLoop k n c [] n with
    | none => none
    | some (c, .full got) => some ({ c with counter := c.counter - (got.length : Nat) }, some got)
    | some (c, .wait got want) => some ({ c with pend := ⟨got, want⟩ :: c.pend }, none)

/-- `RegisterSizeClass`, central_freelist.cc:134 (pagemap.cc): every page of the span is mapped to it. -/
def register (k : Geo) (c : Cfl) (p : Nat) : Cfl :=
  { c with map := fun a => if p ≤ a ∧ a < p + k.numPages then some p else c.map a }

/-- The rest of a pending `RemoveRange` once the page heap has answered: `Populate` from
central_freelist.h:798 on, then `UpdateObjectCounts(-result)` (778); for one object per span, 702-706.
`span` is the page heap's answer: the first page of a fresh span, or null. -/
def populate (k : Geo) (c : Cfl) (j : Nat) (span : Option Nat) : Option (Cfl × List Nat) :=
  match c.pend[j]? with
  | none => none
  | some pd =>
    let c := { c with pend := c.pend.eraseIdx j }
    match span with
    | none => some ({ c with counter := c.counter - (pd.got.length : Nat) }, pd.got)
    | some p =>
      let c := register k c p
      if k.count = 1 then some (c, [(spanAt k p).start])
      else
        match Span.build (spanAt k p) (c.st p) c.w pd.want with
        | none => none
        | some (s', w', out) =>
          if out.length = 0 ∨ out.length ≠ s'.alloc then none
          else
            match recordSpanUtil { c with st := upd c.st p s', w := w' } (bitWidth out.length) true with
            | none => none
            | some c =>
              match (if out.length = k.count then some c
                else (indexFor k out.length (bitWidth out.length)).bind fun index =>
                  (HintedLists.add kNumLists c.hl p index).map fun hl =>
                    { c with hl := hl, idx := upd c.idx p index }) with
              | none => none
              | some c =>
                some ({ c with counter := c.counter + (k.count : Nat) - ((pd.got ++ out).length : Nat),
                               requested := c.requested + 1 }, pd.got ++ out)

/-! ### Reporting -/

/-- `length()`, central_freelist.h:201. -/
def length (c : Cfl) : Int := c.counter

/-- `num_spans()`, central_freelist.h:309-314, and `SpanStats::num_live_spans`. -/
def numSpans (c : Cfl) : Nat := if c.requested < c.returned then 0 else c.requested - c.returned

/-- `OverheadBytes`, central_freelist.h:837-844. -/
def overheadBytes (k : Geo) (c : Cfl) : Nat :=
  if k.size = 0 then 0 else numSpans c * (k.numPages * k.pageSize % k.size)

/-- `GetSpanStats().obj_capacity`, central_freelist.h:846-856. -/
def objCapacity (k : Geo) (c : Cfl) : Nat := if k.count = 0 then 0 else numSpans c * k.count

/-- `NumSpansWith`, central_freelist.h:858-864. -/
def numSpansWith (c : Cfl) (bitwidth : Nat) : Option Int :=
  if 0 < bitwidth ∧ bitwidth - 1 < kSpanUtilBucketCapacity then some (c.hist (bitwidth - 1)) else none

/-- `NumSpansInList`, central_freelist.h:579-585. -/
def numSpansInList (c : Cfl) (n : Nat) : Option Nat := HintedLists.sizeOfList kNumLists c.hl n

end Verif.CentralFreeList
