/-!
Model of /repo/tcmalloc/internal/timeseries_tracker.h, of `MinMaxTracker` (/repo/tcmalloc/huge_cache.h:63-110,
huge_cache.cc:35-58), of `SubreleaseStatsTracker` and `SkippedSubreleaseCorrectnessTracker`
(/repo/tcmalloc/huge_page_subrelease.h), and of `GetDesiredSubreleasePages` (/repo/tcmalloc/huge_page_filler.h:1509-1572).

Each reading of the clock is an argument.  Durations are whole numbers of some unit (`absl::Duration` is one of quarters of
a nanosecond); the quotient of two durations, which the code computes with doubles, is exact here.  Not modelled: printing.
-/
namespace Verif.TimeSeries

/-! ### The clock -/

/-- `absl::bit_width`. -/
def bitWidth (n : Nat) : Nat := if n = 0 then 0 else Nat.log2 n + 1

/-- The constants computed by the constructor, lines 52-64: `div_precision_` and `epoch_ticks_m_`, for an epoch of `d`
ticks.  Only the lower 64 bits of the quotient are kept. -/
def divPrecision (d : Nat) : Nat := 63 + bitWidth d
def epochTicksM (d : Nat) : Nat := (2 ^ divPrecision d / d % 2 ^ 64 + 1) % 2 ^ 64

/-- `GetCurrentEpoch`, lines 100-113, at tick `now`, in 128 bits. -/
def currentEpoch (d now : Nat) : Nat := (epochTicksM d * now % 2 ^ 128) >>> divPrecision d

/-! ### The tracker -/

/-- What the tracker needs of its payload: `Nil()` and `Report(S)`. -/
structure Ops (T S : Type) where
  nil : T
  report : T → S → T

/-- `TimeSeriesContent`, lines 132-140. -/
structure Entry (T : Type) where
  delta : Nat
  payload : T

/-- `TimeSeriesTracker`, lines 142-155. -/
structure Tr (T : Type) where
  entries : Nat → Entry T
  last : Nat
  cur : Nat
  covered : Nat

variable {T S : Type}

/-- `InitTracker`, lines 114-130. -/
def init (ops : Ops T S) (epoch : Nat) : Tr T :=
  { entries := fun i => if i = 0 then ⟨1, ops.nil⟩ else ⟨0, ops.nil⟩, last := epoch, cur := 0, covered := 1 }

/-- `UpdateClock`, lines 160-190; `none` is the failed assertion of line 184.  `K` is `kSlots`. -/
def updateClock (K : Nat) (ops : Ops T S) (s : Tr T) (epoch : Nat) : Option (Bool × Tr T) :=
  if epoch < s.last then some (false, init ops epoch)
  else if epoch = s.last then some (false, s)
  else
    let delta := epoch - s.last
    let cur := if s.cur + 1 = K then 0 else s.cur + 1
    if s.covered < (s.entries cur).delta then none
    else some (true, { entries := fun i => if i = cur then ⟨delta, ops.nil⟩ else s.entries i,
                       last := epoch, cur := cur, covered := s.covered - (s.entries cur).delta + delta })

/-- `Report`, lines 248-253. -/
def report (K : Nat) (ops : Ops T S) (s : Tr T) (epoch : Nat) (v : S) : Option (Bool × Tr T) :=
  match updateClock K ops s epoch with
  | none => none
  | some (b, s1) =>
    some (b, { s1 with entries := fun i => if i = s1.cur then
      ⟨(s1.entries i).delta, ops.report (s1.entries i).payload v⟩ else s1.entries i })

/-- The loop of `IterBackwards`, lines 226-234: what is passed to the callback, with at most `n` more slots, from slot `j`. -/
def visit (K : Nat) (s : Tr T) (E : Nat) : Nat → Nat → Nat → List (Entry T)
  | 0, _, _ => []
  | n + 1, j, traversed =>
    let e := s.entries j
    e :: if E ≤ traversed + e.delta then [] else visit K s E n (if j = 0 then K - 1 else j - 1) (traversed + e.delta)

/-- A quotient, rounded up. -/
def ceilDiv (a b : Nat) : Nat := (a + b - 1) / b

/-- `IterBackwards`, lines 208-236, for an epoch length `len`; `interval = none` is `InfiniteDuration()`.  The result is `none`
if the assertion of line 222 fails. -/
def iterBackwards (K len : Nat) (s : Tr T) (interval : Option Nat) : Option (List (Entry T)) :=
  if interval = some 0 then some []
  else
    let E := match interval with
      | none => s.covered
      | some t => min (ceilDiv t len) s.covered
    if E = 0 then none
    else some (visit K s E (min K E) s.cur 0)

/-- `GetMostRecentRecord`, lines 238-246: the age and the payload. -/
def mostRecent (K : Nat) (s : Tr T) : Nat × T := ((s.entries s.cur).delta, (s.entries ((s.cur + K - 1) % K)).payload)

/-! ### `MinMaxTracker` -/

/-- `kMaxVal`. -/
def kMax : Nat := 2 ^ 64 - 1

/-- `Extrema`, huge_cache.h:84-103. -/
structure Extrema where
  mn : Nat
  mx : Nat

def exOps : Ops Extrema Nat := ⟨⟨kMax, 0⟩, fun p v => ⟨min p.mn v, max p.mx v⟩⟩

/-- `MaxOverTime`, huge_cache.cc:40-47. -/
def maxOverTime (K len : Nat) (s : Tr Extrema) (t : Option Nat) : Option Nat :=
  (iterBackwards K len s t).map fun l => l.foldl (fun m e => max m e.payload.mx) 0

/-- `MinOverTime`, huge_cache.cc:49-58. -/
def minOverTime (K len : Nat) (s : Tr Extrema) (t : Option Nat) : Option Nat :=
  (iterBackwards K len s t).map fun l =>
    let m := l.foldl (fun m e => min m e.payload.mn) kMax
    if m = kMax then 0 else m

/-! ### `SubreleaseStatsTracker` -/

/-- `SubreleaseStats`, huge_page_subrelease.h:255-260. -/
structure Stats where
  num : Nat
  free : Nat
  unmapped : Nat
  subreleased : Nat
  deriving Repr, DecidableEq

/-- `SubreleaseStatsEntry`, lines 433-468. -/
structure SEntry where
  atMin : Stats
  atMax : Stats
  minFree : Nat
  minBacked : Nat
  subreleased : Nat

def SEntry.empty (e : SEntry) : Bool := decide (e.minFree = kMax)

def SEntry.nil : SEntry := ⟨⟨0, 0, 0, 0⟩, ⟨0, 0, 0, 0⟩, kMax, kMax, 0⟩

def SEntry.report (e : SEntry) (v : Stats) : SEntry :=
  let a := if e.empty then v else e.atMin
  let b := if e.empty then v else e.atMax
  { atMin := if v.num < a.num then v else a
    atMax := if b.num < v.num then v else b
    minFree := min e.minFree (v.free + v.unmapped)
    minBacked := min e.minBacked v.free
    subreleased := e.subreleased + v.subreleased }

def sOps : Ops SEntry Stats := ⟨SEntry.nil, SEntry.report⟩

/-- `CalculateDemandPeak`, lines 470-486. -/
def demandPeak (K len : Nat) (s : Tr SEntry) (t : Option Nat) : Option Nat :=
  (iterBackwards K len s t).map fun l =>
    l.foldl (fun m e => if !e.payload.empty && decide (m < e.payload.atMax.num) then e.payload.atMax.num else m) 0

/-- `GetRecentPeak`, lines 317-323, with `window_ = w`. -/
def recentPeak (K len w : Nat) (s : Tr SEntry) (t : Nat) : Option Nat := demandPeak K len s (some (min t w))

/-- `CalculateCombinedDemandTrend`, lines 488-525: an underflow of the difference in line 503 is `none`. -/
def demandTrend (K len w : Nat) (s : Tr SEntry) (short long : Nat) : Option Nat :=
  let short := if short ≠ 0 ∧ long ≠ 0 then min short long else short
  match iterBackwards K len s (some (min short w)), iterBackwards K len s (some (min long w)) with
  | some l1, some l2 =>
    if l1.all (fun e => e.payload.empty || decide (e.payload.atMin.num ≤ e.payload.atMax.num)) then
      some (l1.foldl (fun m e => if !e.payload.empty && decide (m < e.payload.atMax.num - e.payload.atMin.num) then
          e.payload.atMax.num - e.payload.atMin.num else m) 0 +
        l2.foldl (fun m e => if !e.payload.empty && decide (m < e.payload.atMin.num) then e.payload.atMin.num else m) 0)
    else none
  | _, _ => none

/-- `GetRecentDemand`, lines 333-355, with the cap over `cap`. -/
def recentDemand (K len w cap : Nat) (s : Tr SEntry) (short long : Nat) : Option Nat :=
  match demandTrend K len w s short long, demandPeak K len s (some cap) with
  | some a, some b => some (min b a)
  | _, _ => none

/-- `min_free_pages`, lines 389-411: all free pages, and the backed ones. -/
def minFreePages (K len : Nat) (s : Tr SEntry) (t : Nat) : Option (Nat × Nat) :=
  (iterBackwards K len s (some t)).map fun l =>
    let a := l.foldl (fun m e => if e.payload.empty then m else min m e.payload.minFree) kMax
    let b := l.foldl (fun m e => if e.payload.empty then m else min m e.payload.minBacked) kMax
    (if a = kMax then 0 else a, if b = kMax then 0 else b)

/-! ### The decision not to release -/

/-- The result of `GetDesiredSubreleasePages`, huge_page_filler.h:1509-1572, once the demand requirement is known; and what is
reported as skipped, with the peak, if anything.  `none` if an assertion fails or a difference underflows. -/
def desiredPages (used free desired released required : Nat) : Option (Nat × Option (Nat × Nat)) :=
  if desired ≤ released then none          -- line 1517
  else
    let current := used + free
    if required = 0 then some (desired, none)
    else
      let newDesired := if current ≤ required then released else released + (current - required)
      if desired ≤ newDesired then some (desired, none)
      else
        let releasable := min free (newDesired - released)
        let skipped := min (free - releasable) (desired - newDesired)
        some (newDesired, if skipped = 0 then none else some (skipped, min current required))

/-! ### `SkippedSubreleaseCorrectnessTracker` -/

/-- `SkippedSubreleaseDecision`, lines 47-66. -/
structure Dec where
  pages : Nat
  count : Nat
  deriving Repr, DecidableEq

def Dec.zero : Dec := ⟨0, 0⟩
def Dec.add (a b : Dec) : Dec := ⟨a.pages + b.pages, a.count + b.count⟩

/-- `SkippedSubreleaseUpdate`, lines 150-165. -/
structure Upd where
  dec : Dec
  at_ : Nat
  peak : Nat

/-- `SkippedSubreleaseEntry`, lines 167-180. -/
structure CEntry where
  dec : Dec
  at_ : Nat
  peak : Nat

def cOps : Ops CEntry Upd := ⟨⟨.zero, 0, 0⟩, fun e u => ⟨e.dec.add u.dec, max e.at_ u.at_, max e.peak u.peak⟩⟩

/-- `SkippedSubreleaseCorrectnessTracker`, lines 182-205. -/
structure Corr where
  lastPeak : Nat
  total : Dec
  correct : Dec
  pending : Dec
  tr : Tr CEntry

def Corr.init (epoch : Nat) : Corr := ⟨0, .zero, .zero, .zero, TimeSeries.init cOps epoch⟩

/-- `ReportSkippedSubreleasePages`, lines 84-92. -/
def Corr.skipped (K : Nat) (c : Corr) (epoch pages peakPages : Nat) : Option Corr :=
  (report K cOps c.tr epoch ⟨⟨pages, 1⟩, peakPages, 0⟩).map fun r =>
    { c with total := c.total.add ⟨pages, 1⟩, pending := c.pending.add ⟨pages, 1⟩, tr := r.2 }

/-- The callback of lines 113-136 for entries after the first: what is confirmed, what stays pending, and the largest peak
confirmed. -/
def Corr.scan (peak : Nat) : List (Entry CEntry) → Nat → Dec → Dec → Dec × Dec
  | [], _, correct, pending => (correct, pending)
  | e :: r, largest, correct, pending =>
    let p := e.payload
    let hit := decide (0 < p.dec.count) && decide (largest < p.at_)
    Corr.scan peak r (max largest p.peak)
      (if hit && decide (p.at_ ≤ peak) then correct.add p.dec else correct)
      (if hit && !decide (p.at_ ≤ peak) then pending.add p.dec else pending)

/-- `ReportUpdatedPeak`, lines 94-141, for an interval `t` that includes the current epoch. -/
def Corr.updatedPeak (K len t : Nat) (c : Corr) (epoch peak : Nat) : Option Corr :=
  match report K cOps c.tr epoch ⟨.zero, 0, peak⟩ with
  | none => none
  | some (moved, tr) =>
    let lastPeak := if moved then 0 else c.lastPeak
    (iterBackwards K len tr (some t)).map fun l =>
      let r := Corr.scan peak l.tail lastPeak c.correct .zero
      { c with lastPeak := max lastPeak peak, correct := r.1, pending := r.2, tr := tr }

/-! ### The two together -/

/-- `SubreleaseStatsTracker`, lines 527-546. -/
structure Sub where
  tr : Tr SEntry
  corr : Corr

/-- `SubreleaseStatsTracker::Report`, lines 290-307; the correctness tracker reads the clock again (`epoch2`).  `summary` is
`summary_interval_`, and lines 134-135 add one epoch to it. -/
def Sub.report (K len summary : Nat) (s : Sub) (epoch epoch2 : Nat) (v : Stats) : Option Sub :=
  match TimeSeries.report K sOps s.tr epoch v with
  | none => none
  | some (moved, tr) =>
    if moved && decide (0 < s.corr.pending.count) then
      let rec_ := mostRecent K tr
      let peak := if rec_.1 ≤ summary / len then max v.num rec_.2.atMax.num else v.num
      (s.corr.updatedPeak K len (summary + len) epoch2 peak).map fun c => ⟨tr, c⟩
    else some { s with tr := tr }

/-- `SubreleaseStatsTracker::ReportSkippedSubreleasePages`, lines 357-365. -/
def Sub.skipped (K : Nat) (s : Sub) (epoch pages peakPages : Nat) : Option Sub :=
  if pages = 0 then some s
  else (s.corr.skipped K epoch pages peakPages).map fun c => { s with corr := c }

end Verif.TimeSeries
