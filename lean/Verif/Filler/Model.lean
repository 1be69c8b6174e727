import Verif.PageTracker.Model
import Verif.HintedLists.Model
/-
Model of `HugePageFiller`, /repo/tcmalloc/huge_page_filler.h, with the treatments of
/repo/tcmalloc/huge_page_treatment.h.

Trackers are named by numbers (their addresses); `tr` maps a name to the tracker's contents.  `N` =
`kPagesPerHugePage`, `mode` = (`subrelease_unbacked_mode_` is `kEnabled`); a density is a `Bool`, `true` = `kDense`.
`none` = a failed check or assertion, or an arithmetic underflow.

`Put` gives up the page heap lock while it waits for the kernel (`unback_without_lock_`, line 1325), and
`TreatHugepageTrackers` gives it up between selecting trackers and recording what was observed (1870-1877), so each
is split into a first and a second half, between which any other call may run.  `unback_` keeps the lock.

Simplifications: lifetimes, tagging, histograms, the clock and the time-series statistics are omitted.  What
`SkipSubrelease` and the 10 % rule make of the release target (1586-1597, 1618-1623) is an arbitrary number given with
the call.  Ties between equally good release candidates are broken by list order.  Which trackers a treatment selects,
and whether a tracker is being collapsed, is arbitrary.
-/
namespace Verif.Filler
open Verif.Bitmap Verif.RangeTracker Verif.PageTracker Verif.HintedLists

/-- `kChunks`, huge_page_filler.h:919. -/
def kChunks : Nat := 8

/-- The seven arrays of tracker lists, huge_page_filler.h:934-949. -/
inductive LK where
  | donated
  | regular (dense : Bool)
  | partialRel (dense : Bool)
  | released (dense : Bool)
  deriving Repr, DecidableEq

/-- How many lists an array has: `kPagesPerHugePage` (937) or `kNumLists` (932). -/
def nLists (N : Nat) : LK → Nat
  | .donated => N
  | _ => N * kChunks

/-- huge_page_filler.h:934-968 and 1035-1042. -/
structure F where
  tr : Nat → PT
  hl : LK → HL
  freed : List Nat
  nUsedRel : Bool → Nat
  nUsedPart : Bool → Nat
  nWas : Bool → Nat
  alloc : Bool → Nat
  size : Nat
  unmapped : Nat
  unacc : Nat

def F.init (N : Nat) : F :=
  { tr := fun id => PT.new N id false, hl := fun k => HL.new (nLists N k), freed := [], nUsedRel := fun _ => 0,
    nUsedPart := fun _ => 0, nWas := fun _ => 0, alloc := fun _ => 0, size := 0, unmapped := 0, unacc := 0 }

def upd {α β : Type} [DecidableEq α] (f : α → β) (a : α) (b : β) : α → β := fun x => if x = a then b else f x

def F.setTr (s : F) (id : Nat) (t : PT) : F := { s with tr := upd s.tr id t }

/-- `free_pages()`, huge_page_tracker.h:613-615. -/
def freePages (N : Nat) (t : PT) : Nat := N - t.free.nused

/-- `__builtin_clzl` on a positive argument. -/
def clz64 (x : Nat) : Nat := 63 - Nat.log2 x

/-- `IndexFor`, huge_page_filler.h:2383-2408. -/
def indexFor (t : PT) : Option Nat :=
  if t.free.nused = 0 then none
  else if t.dense then some 0
  else
    let off := clz64 1 - (kChunks - 1)
    let i := max (clz64 (2 * t.free.nallocs - 1)) off - off
    if i < kChunks then some i else none

/-- `ListFor` with `SparseListFor` and `DenseListFor`, huge_page_filler.h:2410-2440. -/
def listFor (N longest chunk : Nat) (dense : Bool) (nallocs : Nat) : Option Nat :=
  if chunk < kChunks then
    if dense then (if nallocs ≤ N then some ((N - nallocs) * kChunks + chunk) else none)
    else (if longest < N then some (longest * kChunks + chunk) else none)
  else none

/-- Lines 2455 and 2505. -/
def listOf (N : Nat) (t : PT) : Option Nat :=
  match indexFor t with
  | none => none
  | some c => listFor N t.free.longestFree c t.dense t.free.nallocs

/-- `RemoveFromFillerList`, huge_page_filler.h:2442-2470. -/
def removeFrom (N : Nat) (mode : Bool) (s : F) (id : Nat) : Option F :=
  let t := s.tr id
  if t.free.longestFree < N then
    if t.donated then
      match HintedLists.remove (nLists N .donated) (s.hl .donated) id t.free.longestFree with
      | none => none
      | some h => some { s with hl := upd s.hl .donated h }
    else
      match listOf N t with
      | none => none
      | some i =>
        if t.relCount = 0 ∧ (t.unbroken = true ∨ mode = false) then
          match HintedLists.remove (nLists N (.regular t.dense)) (s.hl (.regular t.dense)) id i with
          | none => none
          | some h => some { s with hl := upd s.hl (.regular t.dense) h }
        else if freePages N t ≤ t.relCount then
          match HintedLists.remove (nLists N (.released t.dense)) (s.hl (.released t.dense)) id i,
                subCount (s.nUsedRel t.dense) t.free.nused with
          | some h, some c => some { s with hl := upd s.hl (.released t.dense) h, nUsedRel := upd s.nUsedRel t.dense c }
          | _, _ => none
        else
          match HintedLists.remove (nLists N (.partialRel t.dense)) (s.hl (.partialRel t.dense)) id i,
                subCount (s.nUsedPart t.dense) t.free.nused with
          | some h, some c =>
            some { s with hl := upd s.hl (.partialRel t.dense) h, nUsedPart := upd s.nUsedPart t.dense c }
          | _, _ => none
  else none

/-- `AddToFillerList`, huge_page_filler.h:2484-2518. -/
def addTo (N : Nat) (mode : Bool) (s : F) (id : Nat) : Option F :=
  if (s.tr id).free.longestFree > N then none
  else if (s.tr id).free.longestFree = N then
    if (s.tr id).free.nused = 0 ∧ (s.tr id).dontFree ≠ 0 then some { s with freed := id :: s.freed } else none
  else
    let t := { s.tr id with donated := false }
    let s1 := s.setTr id t
    match listOf N t with
    | none => none
    | some i =>
      if t.relCount = 0 ∧ (t.unbroken = true ∨ mode = false) then
        match HintedLists.add (nLists N (.regular t.dense)) (s.hl (.regular t.dense)) id i with
        | none => none
        | some h => some { s1 with hl := upd s.hl (.regular t.dense) h }
      else if freePages N t ≤ t.relCount then
        match HintedLists.add (nLists N (.released t.dense)) (s.hl (.released t.dense)) id i with
        | none => none
        | some h =>
          some { s1 with hl := upd s.hl (.released t.dense) h,
                         nUsedRel := upd s.nUsedRel t.dense (s.nUsedRel t.dense + t.free.nused) }
      else
        match HintedLists.add (nLists N (.partialRel t.dense)) (s.hl (.partialRel t.dense)) id i with
        | none => none
        | some h =>
          some { s1 with hl := upd s.hl (.partialRel t.dense) h,
                         nUsedPart := upd s.nUsedPart t.dense (s.nUsedPart t.dense + t.free.nused) }

/-- `DonateToFillerList`, huge_page_filler.h:2520-2532. -/
def donateTo (N : Nat) (s : F) (id : Nat) : Option F :=
  if (s.tr id).free.longestFree < N ∧ (s.tr id).relCount = 0 then
    match HintedLists.add (nLists N .donated) (s.hl .donated) id (s.tr id).free.longestFree with
    | none => none
    | some h => some { s.setTr id { s.tr id with donated := true } with hl := upd s.hl .donated h }
  else none

/-- `lists.GetLeast(i)` on one of the arrays. -/
def takeLeast (N : Nat) (s : F) (k : LK) (i : Nat) : Option (F × Option Nat) :=
  match getLeast (nLists N k) (s.hl k) i with
  | none => none
  | some (h, r) => some ({ s with hl := upd s.hl k h }, r)

/-- Lines 1200-1209. -/
def pickReleased (N : Nat) (s : F) (dense : Bool) (li : Nat) : Option (F × Option (Nat × Bool)) :=
  match takeLeast N s (.released dense) li with
  | none => none
  | some (s1, none) => some (s1, none)
  | some (s1, some id) =>
    if (s1.tr id).donated then none
    else
      match subCount (s1.nUsedRel dense) (s1.tr id).free.nused with
      | none => none
      | some c => some ({ s1 with nUsedRel := upd s1.nUsedRel dense c }, some (id, true))

/-- Lines 1192-1199. -/
def pickPartial (N : Nat) (s : F) (dense : Bool) (li : Nat) : Option (F × Option (Nat × Bool)) :=
  match takeLeast N s (.partialRel dense) li with
  | none => none
  | some (s1, none) => pickReleased N s1 dense li
  | some (s1, some id) =>
    if (s1.tr id).donated then none
    else
      match subCount (s1.nUsedPart dense) (s1.tr id).free.nused with
      | none => none
      | some c => some ({ s1 with nUsedPart := upd s1.nUsedPart dense c }, some (id, true))

/-- Lines 1186-1191. -/
def pickDonated (N : Nat) (s : F) (n : Nat) (dense : Bool) (li : Nat) : Option (F × Option (Nat × Bool)) :=
  if dense then pickPartial N s dense li
  else
    match takeLeast N s .donated n with
    | none => none
    | some (s1, none) => pickPartial N s1 dense li
    | some (s1, some id) => some (s1, some (id, false))

/-- Lines 1178-1210: the tracker to allocate from, off its list, and `was_released`. -/
def pick (N : Nat) (s : F) (n : Nat) (dense : Bool) (li : Nat) : Option (F × Option (Nat × Bool)) :=
  match takeLeast N s (.regular dense) li with
  | none => none
  | some (s1, none) => pickDonated N s1 n dense li
  | some (s1, some id) => if (s1.tr id).donated then none else some (s1, some (id, false))

/-- Lines 1227-1232: remember that a released hugepage became whole again. -/
def noteWhole (s : F) (id : Nat) (wasRel dense : Bool) : F :=
  if wasRel = true ∧ (s.tr id).relCount = 0 ∧ (s.tr id).wasReleased = false then
    { s.setTr id { s.tr id with wasReleased := true } with nWas := upd s.nWas dense (s.nWas dense + 1) }
  else s

/-- Lines 1211-1240. -/
def finishGet (N : Nat) (mode : Bool) (s : F) (n objs : Nat) (dense : Bool) (id : Nat) (wasRel : Bool) :
    Option (F × Nat) :=
  if n ≤ (s.tr id).free.longestFree ∧ (dense = false ∨ (s.tr id).dense = true) then
    match PageTracker.get N (s.tr id) n objs with
    | none => none
    | some (t, page, unbacked) =>
      match addTo N mode (s.setTr id t) id with
      | none => none
      | some s2 =>
        let s3 := noteWhole { s2 with alloc := upd s2.alloc dense (s2.alloc dense + n) } id wasRel dense
        if wasRel = true ∨ unbacked = 0 then
          match subCount s3.unmapped unbacked with
          | none => none
          | some u => if (s3.tr id).donated then none else some ({ s3 with unmapped := u }, page)
        else none
  else none

/-- `TryGet`, huge_page_filler.h:1102-1241: tracker, page, `from_released`. -/
def tryGet (N : Nat) (mode : Bool) (s : F) (n objs : Nat) (dense : Bool) : Option (F × Option (Nat × Nat × Bool)) :=
  if 0 < n ∧ (dense = false ∨ n = 1) ∧ n < N then
    match listFor N n 0 dense (N - 1) with
    | none => none
    | some li =>
      match pick N s n dense li with
      | none => none
      | some (s1, none) => some (s1, none)
      | some (s1, some (id, wasRel)) =>
        match finishGet N mode s1 n objs dense id wasRel with
        | none => none
        | some (s2, page) => some (s2, some (id, page, wasRel))
  else none

/-- What a `Put` is about to do: wait for the kernel's answer about the rest of a partially released hugepage
(`rest` = `free_pages - released_pages`), or nothing more (the returned tracker). -/
inductive PutRes where
  | wait (rest : Nat)
  | done (r : Option Nat)
  deriving Repr, DecidableEq

/-- Lines 1353-1355. -/
def putBack (N : Nat) (mode : Bool) (s : F) (id : Nat) : Option (F × PutRes) :=
  match addTo N mode s id with
  | none => none
  | some s => some (s, .done none)

/-- Lines 1334-1355: the rest of `Put` once the hugepage is empty and the kernel, if asked, has answered. -/
def putEmpty (N : Nat) (mode : Bool) (s : F) (id : Nat) : Option (F × PutRes) :=
  let d := (s.tr id).dense
  if (s.tr id).wasReleased then
    match subCount (s.nWas d) 1 with
    | none => none
    | some c =>
      let s1 := { s.setTr id { s.tr id with wasReleased := false } with nWas := upd s.nWas d c }
      if (s1.tr id).dontFree = 0 then some (s1, .done (some id)) else putBack N mode s1 id
  else if (s.tr id).dontFree = 0 then some (s, .done (some id)) else putBack N mode s id

/-- Lines 1311-1332, up to the call of the kernel. -/
def putReleased (N : Nat) (mode : Bool) (s : F) (id : Nat) : Option (F × PutRes) :=
  let t := s.tr id
  if t.relCount > 0 then
    if t.relCount ≤ freePages N t then
      match subCount s.unmapped t.relCount with
      | none => none
      | some u =>
        if t.relCount < freePages N t then some ({ s with unmapped := u }, .wait (freePages N t - t.relCount))
        else putEmpty N mode { s with unmapped := u } id
    else none
  else putEmpty N mode s id

/-- `Put` up to the point where it waits for the kernel (or to its end), huge_page_filler.h:1295-1356. -/
def put (N : Nat) (mode : Bool) (s : F) (id p n objs : Nat) : Option (F × PutRes) :=
  match removeFrom N mode s id with
  | none => none
  | some s1 =>
    match PageTracker.put N (s1.tr id) p n objs, subCount (s1.alloc (s1.tr id).dense) n with
    | some t, some a =>
      let s2 := { s1.setTr id t with alloc := upd s1.alloc t.dense a }
      if t.free.longestFree = N then
        if t.free.nallocs = 0 then
          match subCount s2.size 1 with
          | none => none
          | some z => putReleased N mode { s2 with size := z } id
        else none
      else putBack N mode s2 id
    | _, _ => none

/-- `Put` from the kernel's answer on, lines 1324-1355. -/
def putAnswer (N : Nat) (mode : Bool) (s : F) (id rest : Nat) (ok : Bool) : Option (F × PutRes) :=
  putEmpty N mode (if ok then { s with unacc := s.unacc + rest } else s) id

/-- `Contribute`, huge_page_filler.h:1358-1384; `t` is the contents of the new tracker `id`. -/
def contribute (N : Nat) (mode : Bool) (s : F) (id : Nat) (t : PT) (donated dense : Bool) : Option F :=
  if t.relCount = 0 ∧ ¬ (dense = true ∧ donated = true) then
    let s1 := { s.setTr id t with alloc := upd s.alloc dense (s.alloc dense + t.free.nused) }
    if donated then
      if t.wasDonated then (donateTo N s1 id).map (fun s => { s with size := s.size + 1 }) else none
    else
      (addTo N mode (s1.setTr id { t with dense := t.dense || dense }) id).map (fun s => { s with size := s.size + 1 })
  else none

/-- `FetchFullyFreedTracker`, huge_page_filler.h:2472-2482. -/
def fetchFreed (s : F) : F × Option Nat :=
  match s.freed with
  | [] => (s, none)
  | id :: L => ({ s with freed := L }, some id)

/-! ### Releasing -/

/-- `CompareForSubrelease`, huge_page_filler.h:1001-1016. -/
def better (a b : PT) : Bool :=
  if a.free.nused < b.free.nused then true
  else if a.free.nused > b.free.nused then false
  else if a.dense then false
  else b.dense

/-- The root of the heap of candidates: a worst one. -/
def worst (tr : Nat → PT) : List Nat → Nat → Nat
  | [], w => w
  | x :: L, w => worst tr L (if better (tr w) (tr x) then x else w)

/-- `PushCandidate`, huge_page_filler.h:1391-1427, on a bounded priority queue of `cap` entries. -/
def pushCandidate (N : Nat) (tr : Nat → PT) (skip : Nat → Bool) (cap : Nat) (acc : List Nat) (id : Nat) :
    Option (List Nat) :=
  if 0 < freePages N (tr id) ∧ (tr id).relCount < freePages N (tr id) then
    if skip id then some acc
    else if acc.length < cap then some (acc ++ [id])
    else
      match acc with
      | [] => none
      | x :: L =>
        if better (tr (worst tr L x)) (tr id) then some acc
        else some ((x :: L).erase (worst tr L x) ++ [id])
  else none

/-- `SelectCandidates`, huge_page_filler.h:1386-1432. -/
def selectCandidates (N : Nat) (s : F) (skip : Nat → Bool) (k : LK) (start : Nat) (acc : List Nat) :
    Option (List Nat) :=
  match iter (nLists N k) (s.hl k) start with
  | none => none
  | some L => L.foldlM (pushCandidate N s.tr skip N) acc

/-- Lines 1470-1480: `was_released` is kept only for hugepages that are not released. -/
def clearWas (s : F) (id : Nat) : Option F :=
  if (s.tr id).wasReleased = true ∧ (s.tr id).relCount > 0 then
    match subCount (s.nWas (s.tr id).dense) 1 with
    | none => none
    | some c => some { s.setTr id { s.tr id with wasReleased := false } with nWas := upd s.nWas (s.tr id).dense c }
  else some s

/-- One candidate, lines 1464-1480: the new state, the pages released, the calls made. -/
def releaseOne (N : Nat) (mode : Bool) (s : F) (id : Nat) (ok : Nat → Bool) : Option (F × Nat × List Call) :=
  match removeFrom N mode s id with
  | none => none
  | some s1 =>
    match releaseFree N (s1.tr id) ok with
    | none => none
    | some (t, ret, calls) =>
      let s2 := { s1.setTr id t with unmapped := s1.unmapped + ret }
      if t.relCount ≤ s2.unmapped then
        match addTo N mode s2 id with
        | none => none
        | some s3 =>
          match clearWas s3 id with
          | none => none
          | some s4 => some (s4, ret, calls)
      else none

/-- A call of the kernel: the tracker whose hugepage it concerns, and the pages. -/
abbrev Log := List (Nat × Call)

/-- The loop of `ReleaseCandidates`, lines 1444-1481; `k` numbers the `ReleaseFree` calls, `ok k` answers the `k`-th. -/
def releaseLoop (N : Nat) (mode : Bool) (target : Nat) (ok : Nat → Nat → Bool) :
    List Nat → F → Nat → Nat → Nat → Log → Option (F × Nat × Nat × Log)
  | [], s, total, _, k, log => some (s, total, k, log)
  | id :: L, s, total, last, k, log =>
    if total < target then
      if freePages N (s.tr id) ≠ 0 ∧ (s.tr id).relCount < freePages N (s.tr id) ∧ last ≤ (s.tr id).free.nused then
        match releaseOne N mode s id (ok k) with
        | none => none
        | some (s', ret, calls) =>
          releaseLoop N mode target ok L s' (total + ret) (s.tr id).free.nused (k + 1)
            (log ++ calls.map (fun c => (id, c)))
      else none
    else some (s, total, k, log)

/-- Sorting, for `absl::c_sort`, huge_page_filler.h:1436. -/
def insertBy (le : Nat → Nat → Bool) (x : Nat) : List Nat → List Nat
  | [] => [x]
  | y :: L => if le x y then x :: y :: L else y :: insertBy le x L

def sortBy (le : Nat → Nat → Bool) : List Nat → List Nat
  | [] => []
  | x :: L => insertBy le x (sortBy le L)

/-- `ReleaseCandidates`, huge_page_filler.h:1434-1493. -/
def releaseCandidates (N : Nat) (mode : Bool) (s : F) (cands : List Nat) (target : Nat) (ok : Nat → Nat → Bool)
    (k : Nat) : Option (F × Nat × Nat × Log) :=
  releaseLoop N mode target ok (sortBy (fun a b => !better (s.tr b) (s.tr a)) cands) s 0 0 k []

/-- Lines 1634-1647. -/
def candsPartial (N : Nat) (s : F) (skip : Nat → Bool) : Option (List Nat) :=
  match selectCandidates N s skip (.partialRel false) kChunks [] with
  | none => none
  | some a => selectCandidates N s skip (.partialRel true) kChunks a

/-- Lines 1662-1678. -/
def candsWhole (N : Nat) (s : F) (skip : Nat → Bool) : Option (List Nat) :=
  match selectCandidates N s skip (.regular false) kChunks [] with
  | none => none
  | some a =>
    match selectCandidates N s skip (.regular true) kChunks a with
    | none => none
    | some b => selectCandidates N s skip .donated 0 b

/-- One round, e.g. lines 1634-1651: pages released. -/
def round (N : Nat) (mode : Bool) (sel : F → Option (List Nat)) (s : F) (want : Nat) (ok : Nat → Nat → Bool)
    (k : Nat) : Option (F × Nat × Nat × Log) :=
  match sel s with
  | none => none
  | some cands => releaseCandidates N mode s cands want ok k

/-- The loops 1633-1657 and 1661-1687: rounds until the target is met or a round releases nothing. -/
def rounds (N : Nat) (mode : Bool) (sel : F → Option (List Nat)) (desired : Nat) (ok : Nat → Nat → Bool) (s : F)
    (total k : Nat) (log : Log) : Option (F × Nat × Nat × Log) :=
  if _h : total < desired then
    match round N mode sel s (desired - total) ok k with
    | none => none
    | some (s', rel, k', log') =>
      if _hr : rel = 0 then some (s', total, k', log ++ log')
      else rounds N mode sel desired ok s' (total + rel) k' (log ++ log')
  else some (s, total, k, log)
termination_by desired - total
decreasing_by omega

/-- The target `ReleasePages` works towards, huge_page_filler.h:1610-1640. -/
def goal (desired : Nat) (adjusted : Option Nat) : Nat :=
  match adjusted with | none => desired | some d => d

/-- `ReleasePages`, huge_page_filler.h:1573-1690.  `desired` already includes the 10 % rule; `adjusted` is the target
after `GetDesiredSubreleasePages`, if that applies. -/
def releasePages (N : Nat) (mode : Bool) (s : F) (desired : Nat) (adjusted : Option Nat) (skip : Nat → Bool)
    (ok : Nat → Nat → Bool) : Option (F × Nat × Log) :=
  let total := s.unacc
  let s1 := { s with unacc := 0 }
  if desired ≤ total then some (s1, total, [])
  else
    let d := goal desired adjusted
    if d ≤ total then some (s1, total, [])
    else
      match rounds N mode (fun s => candsPartial N s skip) d ok s1 total 0 [] with
      | none => none
      | some (s2, total2, k2, log2) =>
        match rounds N mode (fun s => candsWhole N s skip) d ok s2 total2 k2 log2 with
        | none => none
        | some (s3, total3, _, log3) => some (s3, total3, log3)

/-! ### Treatments -/

/-- `HugePageTreatmentType`, huge_page_options.h:25-28. -/
def kSampled : Nat := 1
def kCollapse : Nat := 2

/-- `SetDontFreeTracker`, huge_page_tracker.h:302-304. -/
def pin (b : Nat) (s : F) (id : Nat) : F := s.setTr id { s.tr id with dontFree := (s.tr id).dontFree ||| b }

/-- `ClearDontFreeTracker`, huge_page_tracker.h:305-307. -/
def unpin (b : Nat) (s : F) (id : Nat) : F :=
  s.setTr id { s.tr id with dontFree := (s.tr id).dontFree &&& (255 ^^^ b) }

/-- `TreatHugepageTrackers` up to dropping the lock, huge_page_filler.h:1817-1870: the selected trackers are pinned
(huge_page_treatment.h:240 and 357, 374). -/
def treatBegin (s : F) (sampled collapse : List Nat) : F := collapse.foldl (pin kCollapse) (sampled.foldl (pin kSampled) s)

/-- What the second treatment observed about a tracker: is it (now) hugepage-backed, does it have swapped and stale
pages, which pages are unbacked. -/
structure Obs where
  id : Nat
  backed : Bool
  swapped : Bool
  stale : Bool
  unbacked : List Word

/-- `HandleReleaseFree`, huge_page_filler.h:1895-1905. -/
def handleReleaseFree (N : Nat) (mode : Bool) (s : F) (id : Nat) (ok : Nat → Bool) : Option (F × Log) :=
  match removeFrom N mode s id with
  | none => none
  | some s1 =>
    match releaseFree N (s1.tr id) ok with
    | none => none
    | some (t, ret, calls) =>
      match addTo N mode { s1.setTr id t with unmapped := s1.unmapped + ret, unacc := s1.unacc + ret } id with
      | none => none
      | some s2 => some (s2, calls.map (fun c => (id, c)))

/-- `OnCollapseSuccess`, huge_page_filler.h:1907-1913. -/
def onCollapseSuccess (N : Nat) (mode : Bool) (s : F) (id : Nat) : Option F :=
  if (s.tr id).unbroken then some s
  else
    match removeFrom N mode s id with
    | none => none
    | some s1 => addTo N mode (s1.setTr id { s1.tr id with unbroken := true }) id

/-- `HandleUnbackedHugePage`, huge_page_filler.h:1915-1925. -/
def handleUnbacked (N : Nat) (mode : Bool) (s : F) (id : Nat) (unbacked : List Word) : Option F :=
  match removeFrom N mode s id with
  | none => none
  | some s1 =>
    match markSubreleased N (s1.tr id) unbacked with
    | none => none
    | some (t, c) => addTo N mode { s1.setTr id t with unmapped := s1.unmapped + c, unacc := s1.unacc + c } id

/-- Lines 493-511 of huge_page_treatment.h: releasing because of swapped or stale pages. -/
def restoreFree (N : Nat) (mode stale : Bool) (s : F) (o : Obs) (ok : Nat → Bool) : Option (F × Log) :=
  if o.swapped = true ∨ (stale = true ∧ o.stale = true) then handleReleaseFree N mode s o.id ok else some (s, [])

/-- One tracker in `HugePageUnbackedTrackerTreatment::Restore`, huge_page_treatment.h:478-521. -/
def restoreOne (N : Nat) (mode stale : Bool) (s : F) (o : Obs) (ok : Nat → Bool) : Option (F × Log) :=
  let s1 := unpin kCollapse s o.id
  if (s1.tr o.id).free.longestFree = N then some (s1, [])
  else
    let s2 := s1.setTr o.id { s1.tr o.id with hugeBacked := o.backed }
    if o.backed then
      if mode then (onCollapseSuccess N mode s2 o.id).map (fun s => (s, [])) else some (s2, [])
    else
      match restoreFree N mode stale s2 o ok with
      | none => none
      | some (s3, log) =>
        if mode then (handleUnbacked N mode s3 o.id o.unbacked).map (fun s => (s, log)) else some (s3, log)

/-- The loop of `Restore`, huge_page_treatment.h:476-522. -/
def restoreAll (N : Nat) (mode stale : Bool) (ok : Nat → Nat → Bool) : List Obs → F → Log → Option (F × Log)
  | [], s, log => some (s, log)
  | o :: L, s, log =>
    match restoreOne N mode stale s o (ok o.id) with
    | none => none
    | some (s', log') => restoreAll N mode stale ok L s' (log ++ log')

/-- `TreatHugepageTrackers` from re-acquiring the lock on, huge_page_filler.h:1877-1893. -/
def treatEnd (N : Nat) (mode stale : Bool) (s : F) (sampled : List Nat) (obs : List Obs) (ok : Nat → Nat → Bool) :
    Option (F × Log) :=
  restoreAll N mode stale ok obs (sampled.foldl (unpin kSampled) s) []

/-! ### Statistics -/

/-- `free_pages()`, huge_page_filler.h:2567-2570. -/
def freeTotal (N : Nat) (s : F) : Option Nat :=
  (subCount (s.size * N) (s.alloc false + s.alloc true)).bind (fun x => subCount x s.unmapped)

/-- `used_pages_in_released`, huge_page_filler.h:771-782. -/
def usedInReleased (N : Nat) (s : F) : Option Nat :=
  if s.nUsedRel false ≤ (s.hl (.released false)).size * N ∧ s.nUsedRel true ≤ (s.hl (.released true)).size * N then
    some (s.nUsedRel true + s.nUsedRel false) else none

/-- `used_pages_in_partial_released`, huge_page_filler.h:783-796. -/
def usedInPartial (N : Nat) (s : F) : Option Nat :=
  if s.nUsedPart false ≤ (s.hl (.partialRel false)).size * N ∧ s.nUsedPart true ≤ (s.hl (.partialRel true)).size * N then
    some (s.nUsedPart true + s.nUsedPart false) else none

/-- `FreePagesInPartialAllocs`, huge_page_filler.h:1495-1510. -/
def freeInPartial (N : Nat) (s : F) : Option Nat :=
  match usedInReleased N s, usedInPartial N s with
  | some a, some b =>
    (subCount (((s.hl (.partialRel false)).size + (s.hl (.partialRel true)).size + (s.hl (.released false)).size +
      (s.hl (.released true)).size) * N) (a + b)).bind (fun x => subCount x s.unmapped)
  | _, _ => none

/-- The runs one tracker reports, huge_page_tracker.h:570-609. -/
def runsOf (N : Nat) (s : F) (id : Nat) : Option (List (Nat × Nat × Bool)) :=
  spanRuns N (s.tr id).free.bits (s.tr id).rel 0

/-- The trackers `AddSpanStats` visits, huge_page_filler.h:1698-1704. -/
def statIds (N : Nat) (s : F) : Option (List Nat) := do
  let a ← iter (nLists N .donated) (s.hl .donated) 0
  let b ← iter (nLists N (.regular true)) (s.hl (.regular true)) kChunks
  let c ← iter (nLists N (.partialRel true)) (s.hl (.partialRel true)) 0
  let d ← iter (nLists N (.released true)) (s.hl (.released true)) 0
  let e ← iter (nLists N (.regular false)) (s.hl (.regular false)) kChunks
  let f ← iter (nLists N (.partialRel false)) (s.hl (.partialRel false)) 0
  let g ← iter (nLists N (.released false)) (s.hl (.released false)) 0
  pure (a ++ b ++ c ++ d ++ e ++ f ++ g)

/-- `AddSpanStats`, huge_page_filler.h:1692-1705: all reported runs (length, returned). -/
def spanStats (N : Nat) (s : F) : Option (List (Nat × Bool)) :=
  match statIds N s with
  | none => none
  | some L => (L.mapM (runsOf N s)).map (fun R => R.flatten.map (fun r => (r.2.1, r.2.2)))

end Verif.Filler
