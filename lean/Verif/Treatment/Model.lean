import Verif.Filler.Model
/-
Model of how a treatment of hugepages chooses the hugepages, decides which the kernel is asked to collapse, and backs
off: /repo/tcmalloc/huge_page_treatment.h (`SelectEligibleTrackers`, `Treat`, `HugePageTreatmentStats`) and
/repo/tcmalloc/huge_page_filler.h:1770-1893 (`ShouldBackoffFromCollapse`, `UpdateMaxBackoffDelay`,
`TreatHugepageTrackers`).  What happens to the chosen hugepages afterwards (`Restore`) is `Filler.treatEnd`.

Simplifications: the clock counts whole cycles (`double` in the code) and does not change while trackers are
selected; `limit` is `kRecordInterval` in cycles, `slow` and `fast` are the 30 ms and 15 ms thresholds in cycles.  The
memory names given to sampled hugepages are not modelled.  The standard library's heap functions are given by what
the C++ standard says of them (`StdHeap`).
-/
namespace Verif.Treatment
open Verif.Bitmap Verif.RangeTracker Verif.PageTracker Verif.HintedLists Verif.Filler

/-- The parts of a tracker only treatments use: `TagState`, huge_page_tracker.h:310-313, and of
`HugePageResidencyState` `entry_valid` and `record_time`, huge_page_tracker.h:233-241. -/
structure Info where
  sampled : Bool
  tagTime : Nat
  valid : Bool
  recTime : Nat
  deriving Repr, DecidableEq

/-- `kTotalTrackersToScan`, huge_page_treatment.h:282 and 564. -/
def kTotal : Nat := 64

/-- `CompareForHugePageTreatment`, huge_page_treatment.h:344-353. -/
def better (tr : Nat → PT) (a b : Nat) : Bool :=
  if (tr a).objects > (tr b).objects then true
  else if (tr a).objects < (tr b).objects then false
  else if !(tr a).dense then false
  else !(tr b).dense

/-- `std::make_heap`, `std::pop_heap`, `std::push_heap` with a comparison function: arrays as lists. -/
structure StdHeap where
  make : (Nat → Nat → Bool) → List Nat → List Nat
  pop : (Nat → Nat → Bool) → List Nat → List Nat
  push : (Nat → Nat → Bool) → List Nat → List Nat

/-- The state while trackers are selected: the filler (for the pins), what only treatments use, and the two arrays
`selected_trackers_`, huge_page_treatment.h:296-297 and 573-574. -/
structure Sel where
  f : F
  info : Nat → Info
  tag : List Nat
  col : List Nat

/-- `SampledTrackerTreatment::SelectEligibleTrackers`, huge_page_treatment.h:214-243. -/
def selectTag (limit now : Nat) (s : Sel) (id : Nat) : Sel :=
  if s.tag.length ≥ kTotal then s
  else if !(s.info id).sampled then s
  else if now - (s.info id).tagTime > limit then
    { s with
      f := pin kSampled s.f id
      info := upd s.info id { s.info id with sampled := true, tagTime := now }
      tag := s.tag ++ [id] }
  else s

/-- `PushCandidate`, huge_page_treatment.h:357-383. -/
def pushCandidate (H : StdHeap) (s : Sel) (id : Nat) : Sel :=
  if s.col.length < kTotal then
    let col := s.col ++ [id]
    { s with
      f := pin kCollapse s.f id
      col := if col.length = kTotal then H.make (better s.f.tr) col else col }
  else if better s.f.tr (s.col.headD 0) id then s
  else
    let a := H.pop (better s.f.tr) s.col
    let last := a.getLastD 0
    { s with
      f := unpin kCollapse (pin kCollapse s.f id) last
      col := H.push (better s.f.tr) (a.dropLast ++ [id]) }

/-- `HugePageUnbackedTrackerTreatment::SelectEligibleTrackers`, huge_page_treatment.h:385-396. -/
def selectCol (H : StdHeap) (limit now : Nat) (s : Sel) (id : Nat) : Sel :=
  if (s.f.tr id).hugeBacked then s
  else if !(s.info id).valid then pushCandidate H s id
  else if now - (s.info id).recTime > limit then pushCandidate H s id
  else s

/-- The hugepages `TreatHugepageTrackers` goes through, in order, huge_page_filler.h:1818-1867, and which treatments
look at them: naming, collapsing. -/
def visits (N : Nat) (mode : Bool) (s : F) : Option (List (Nat × Bool × Bool)) := do
  let a ← iter (nLists N (.partialRel false)) (s.hl (.partialRel false)) 0
  let b ← iter (nLists N (.partialRel true)) (s.hl (.partialRel true)) 0
  let c ← iter (nLists N .donated) (s.hl .donated) 0
  let d ← iter (nLists N (.regular true)) (s.hl (.regular true)) 0
  let e ← iter (nLists N (.regular false)) (s.hl (.regular false)) 0
  let f ← iter (nLists N (.released false)) (s.hl (.released false)) 0
  let g ← iter (nLists N (.released true)) (s.hl (.released true)) 0
  pure (a.map (·, true, true) ++ b.map (·, true, true) ++ c.map (·, false, true) ++ d.map (·, true, true) ++
    e.map (·, true, true) ++ f.map (·, true, mode) ++ g.map (·, true, mode))

/-- The bodies of the loops, huge_page_filler.h:1819-1822 and following. -/
def visit (H : StdHeap) (limit now : Nat) (s : Sel) (v : Nat × Bool × Bool) : Sel :=
  let s := if v.2.1 then selectTag limit now s v.1 else s
  if v.2.2 then selectCol H limit now s v.1 else s

/-- `TreatHugepageTrackers` up to giving up the lock, huge_page_filler.h:1809-1868. -/
def select (H : StdHeap) (N : Nat) (mode : Bool) (limit now : Nat) (f : F) (info : Nat → Info) : Option Sel :=
  (visits N mode f).map (fun L => L.foldl (visit H limit now) ⟨f, info, [], []⟩)

/-! ### Collapsing -/

/-- `kMaxSwappedPagesForCollapse`, `kMaxUnbackedPagesForCollapse`, huge_page_treatment.h:565-566. -/
def kMaxSwapped : Nat := 128
def kMaxUnbacked : Nat := 64

/-- `CollapseErrorType`, huge_page_treatment.h:76-84. -/
inductive Err where
  | noMem | busy | inval | again | intr | other
  deriving Repr, DecidableEq

/-- The cases of `UpdateCollapseErrorStats`, huge_page_treatment.h:127-148, with Linux's numbers of the errors. -/
def errOf (n : Nat) : Err :=
  if n = 12 then .noMem else if n = 16 then .busy else if n = 22 then .inval else if n = 11 then .again
  else if n = 4 then .intr else .other

/-- `HugePageTreatmentStats`, huge_page_treatment.h:86-104, as far as collapsing is concerned. -/
structure Stats where
  eligible : Nat
  attempted : Nat
  succeeded : Nat
  errors : Err → Nat
  timeTotal : Nat
  timeMax : Nat

def Stats.zero : Stats := ⟨0, 0, 0, fun _ => 0, 0, 0⟩

/-- What the outside says about one selected hugepage: is it backed by a huge page (`none`: unreadable), how many of
its native pages are swapped and unbacked, its bitmaps in the allocator's pages, whether the allocator returned some
page of it to the kernel meanwhile (`released()` in `Collapse`, huge_page_tracker.h:552), and what the kernel answers
if asked to collapse: success, error number, cycles taken. -/
structure Probe where
  id : Nat
  huge : Option Bool
  nSwapped : Nat
  nUnbacked : Nat
  swapped : Bool
  stale : Bool
  unbacked : List Word
  released : Bool
  ok : Bool
  errno : Nat
  cycles : Nat

/-- What is recorded for the hugepage: part of `HugePageResidencyState`, huge_page_tracker.h:233-258; `asked` is ghost
state: the kernel was asked to collapse it. -/
structure Rec where
  obs : Obs
  skipped : Bool
  skippedBackoff : Bool
  asked : Bool

/-- `PageTracker::Collapse`, huge_page_tracker.h:546-569: success, error number; was the kernel asked. -/
def collapse (p : Probe) : Bool × Nat × Bool := if p.released then (false, 0, false) else (p.ok, p.errno, true)

/-- `TryUserspaceCollapse`, huge_page_treatment.h:544-561. -/
def tryCollapse (t : Stats) (p : Probe) : Stats × Bool × Bool :=
  let r := collapse p
  let t := { t with
    timeTotal := t.timeTotal + p.cycles
    timeMax := max p.cycles t.timeMax
    attempted := t.attempted + 1 }
  (if r.1 then { t with succeeded := t.succeeded + 1 } else { t with errors := upd t.errors (errOf r.2.1) (t.errors (errOf r.2.1) + 1) },
    r.1, r.2.2)

/-- One round of the loop of `Treat`, huge_page_treatment.h:431-470. -/
def treatOne (N : Nat) (enable unfiltered : Bool) (slow : Nat) (t : Stats) (p : Probe) : Stats × Rec :=
  let isHuge := p.huge.getD true
  if isHuge then (t, ⟨⟨p.id, true, false, false, Bitmap.empty N⟩, false, false, false⟩)
  else
    let backoff := decide (t.timeMax > slow)
    if enable && !backoff then
      if unfiltered || (decide (p.nSwapped < kMaxSwapped) && decide (p.nUnbacked < kMaxUnbacked)) then
        let r := tryCollapse t p
        (r.1, ⟨⟨p.id, r.2.1, p.swapped, p.stale, p.unbacked⟩, false, false, r.2.2⟩)
      else (t, ⟨⟨p.id, false, p.swapped, p.stale, p.unbacked⟩, true, false, false⟩)
    else if enable && backoff then (t, ⟨⟨p.id, false, p.swapped, p.stale, p.unbacked⟩, true, true, false⟩)
    else (t, ⟨⟨p.id, false, p.swapped, p.stale, p.unbacked⟩, false, false, false⟩)

/-- The loop of `Treat`, huge_page_treatment.h:431-474. -/
def treatLoop (N : Nat) (enable unfiltered : Bool) (slow : Nat) : Stats → List Probe → Stats × List Rec
  | t, [] => (t, [])
  | t, p :: L =>
    let r := treatOne N enable unfiltered slow t p
    let q := treatLoop N enable unfiltered slow r.1 L
    (q.1, r.2 :: q.2)

/-- `Treat`, huge_page_treatment.h:404-474, with the probes of the selected hugepages in order. -/
def treat (N : Nat) (enable unfiltered : Bool) (slow : Nat) (L : List Probe) : Stats × List Rec :=
  treatLoop N enable unfiltered slow { Stats.zero with eligible := if enable then L.length else 0 } L

/-! ### Back-off and totals -/

/-- `kMaxBackoffDelay`, huge_page_filler.h:857. -/
def kMaxDelay : Nat := 128

/-- `max_backoff_delay_`, `current_backoff_delay_`, huge_page_filler.h:1061-1062, and `treatment_stats_`, 958, with
`collapse_intervals_skipped`. -/
structure B where
  delay : Nat
  cur : Nat
  total : Stats
  skips : Nat

def B.init : B := ⟨1, 0, Stats.zero, 0⟩

/-- `ShouldBackoffFromCollapse`, huge_page_filler.h:1771-1781. -/
def shouldBackoff (b : B) : B × Bool :=
  if b.cur + 1 < b.delay then ({ b with cur := b.cur + 1 }, true) else ({ b with cur := 0 }, false)

/-- `UpdateMaxBackoffDelay`, huge_page_filler.h:1783-1794. -/
def updateDelay (slow fast latency : Nat) (b : B) : B :=
  if latency > slow then { b with delay := min (b.delay * 2) kMaxDelay }
  else if latency < fast then { b with delay := max (b.delay / 2) 1 }
  else b

/-- `operator+=`, huge_page_treatment.h:150-162, and the maximum, 537-540. -/
def Stats.add (a b : Stats) : Stats :=
  { eligible := a.eligible + b.eligible, attempted := a.attempted + b.attempted, succeeded := a.succeeded + b.succeeded,
    errors := fun e => a.errors e + b.errors e, timeTotal := a.timeTotal + b.timeTotal, timeMax := max a.timeMax b.timeMax }

/-- The back-off side of `TreatHugepageTrackers`, huge_page_filler.h:1803-1807 and 1870-1886: one treatment, with
collapsing wanted or not; the records, and whether it tried to collapse. -/
def pass (N slow fast : Nat) (b : B) (want unfiltered : Bool) (L : List Probe) : B × List Rec × Bool :=
  let r := if want then shouldBackoff b else (b, false)
  let enable := want && !r.2
  let b := if r.2 then { r.1 with skips := r.1.skips + 1 } else r.1
  let q := treat N enable unfiltered slow L
  let b := if q.1.attempted > 0 then updateDelay slow fast q.1.timeMax b else b
  ({ b with total := b.total.add q.1 }, q.2, enable)

end Verif.Treatment
