import Verif.RangeTracker.Model
/-
Model of `PageTracker`, /repo/tcmalloc/huge_page_tracker.h: which pages of one hugepage are used and which have
been returned to the kernel.

`N` = `kPagesPerHugePage` (256 with 8 KiB pages; 512, 64 and 8 with the other page sizes).  `none` = a failed
check or assertion.  The kernel's answers to `unback` are given by `ok`: the answer to the `k`-th call.
`ReleaseFree` runs with the lock held throughout (its `unback` is the filler's `unback_`, whose `operator()`
keeps the lock), so it is one step.
Simplifications: residency information, tagging and feature snapshots are omitted except
`maybe_hugepage_backed`; 16-bit counters are naturals (they are bounded by `N`, see `accounting_exact`).
-/
namespace Verif.PageTracker
open Verif.Bitmap Verif.RangeTracker

/-- huge_page_tracker.h:334-388. -/
structure PT where
  loc : Nat
  free : RT
  rel : List Word
  relCount : Nat
  objects : Nat
  unbroken : Bool
  hugeBacked : Bool
  donated : Bool
  wasDonated : Bool
  wasReleased : Bool
  abandoned : Bool
  abandonedCount : Nat
  dense : Bool
  dontFree : Nat
  deriving Repr, DecidableEq

/-- The constructor, huge_page_tracker.h:73-86. -/
def PT.new (N loc : Nat) (wasDonated : Bool) : PT :=
  { loc, free := clear N, rel := Bitmap.empty N, relCount := 0, objects := 0, unbroken := true, hugeBacked := false,
    donated := false, wasDonated, wasReleased := false, abandoned := false, abandonedCount := 0, dense := false,
    dontFree := 0 }

/-- `location_.first_page()`. -/
def PT.firstPage (N : Nat) (t : PT) : Nat := t.loc * N

/-- `Get`, huge_page_tracker.h:399-422: the new state, the page, the number of previously unbacked pages. -/
def get (N : Nat) (t : PT) (n objs : Nat) : Option (PT × Nat × Nat) :=
  match findAndMark N t.free n with
  | none => none
  | some (f, index) =>
    let t1 := { t with free := f, objects := t.objects + objs }
    if t.relCount > 0 then
      match countBits N t.rel index n, setRangeValue false N t.rel index n with
      | some unbacked, some rel =>
        match subCount t.relCount unbacked with
        | none => none
        | some c => some ({ t1 with rel, relCount := c }, t.firstPage N + index, unbacked)
      | _, _ => none
    else some (t1, t.firstPage N + index, 0)

/-- `Put`, huge_page_tracker.h:466-471; a page before the hugepage is an underflow (`none`). -/
def put (N : Nat) (t : PT) (p n objs : Nat) : Option PT :=
  if p < t.firstPage N then none else
  match unmark N t.free (p - t.firstPage N) n, subCount t.objects objs with
  | some f, some o => some { t with free := f, objects := o }
  | _, _ => none

/-- A call of `unback`: first page (within the hugepage), number of pages, success. -/
structure Call where
  i : Nat
  n : Nat
  ok : Bool
  deriving Repr, DecidableEq

/-- The loop of `ReleaseFree`, huge_page_tracker.h:485-513; the guards on the ranges are there for termination
only (they always hold, `releaseLoop_spec`).  Returns the new mark bitmap, the count, and the calls made. -/
def releaseLoop (N : Nat) (used rel : List Word) (ok : Nat → Bool) (index count : Nat) (calls : List Call) :
    Option (List Word × Nat × List Call) :=
  match nextFreeRange N rel index with
  | none => none
  | some none => some (rel, count, calls)
  | some (some (i, n)) =>
    match nextFreeRange N used i with
    | none => none
    | some fr =>
      match fr.filter (fun x => decide (x.1 < i + n)) with
      | some (fi, fn) =>
        let e := min (fi + fn) (i + n)
        if countBits N rel fi (e - fi) = some 0 then
          if _h : index < e ∧ e ≤ N then
            if ok calls.length then
              match setRangeValue true N rel fi (e - fi) with
              | none => none
              | some rel' => releaseLoop N used rel' ok e (count + (e - fi)) (calls ++ [⟨fi, e - fi, true⟩])
            else releaseLoop N used rel ok e count (calls ++ [⟨fi, e - fi, false⟩])
          else none
        else none
      | none =>
        if _h : index < i + n ∧ i + n ≤ N then releaseLoop N used rel ok (i + n) count calls else none
termination_by N - index
decreasing_by all_goals omega

/-- `ReleaseFree`, huge_page_tracker.h:473-522. -/
def releaseFree (N : Nat) (t : PT) (ok : Nat → Bool) : Option (PT × Nat × List Call) :=
  match releaseLoop N t.free.bits t.rel ok 0 0 [] with
  | none => none
  | some (rel, count, calls) =>
    if t.relCount + count ≤ N then
      some ({ t with rel, relCount := t.relCount + count,
                     unbroken := if calls.any (·.ok) then false else t.unbroken,
                     hugeBacked := if count > 0 then false else t.hugeBacked }, count, calls)
    else none

/-- `MarkSubreleased`, huge_page_tracker.h:524-544. -/
def markSubreleased (N : Nat) (t : PT) (unbacked : List Word) : Option (PT × Nat) :=
  let toRelease := band (band (complement N t.free.bits) (complement N t.rel)) unbacked
  match countBits N toRelease 0 N with
  | none => none
  | some c =>
    if t.relCount + c ≤ N then
      some ({ t with rel := bor t.rel toRelease, relCount := t.relCount + c, unbroken := false }, c)
    else none

/-- The loop of `AddSpanStats`, huge_page_tracker.h:570-609, as the list of reported runs
(first page, length, returned); guards for termination only. -/
def spanRuns (N : Nat) (used rel : List Word) (index : Nat) : Option (List (Nat × Nat × Bool)) :=
  match nextFreeRange N used index with
  | none => none
  | some none => some []
  | some (some (i, n)) =>
    match getBit N rel i with
    | none => none
    | some r =>
      match (if i ≥ N - 1 then some N else findValue (!r) N rel (i + 1)) with
      | none => none
      | some e =>
        let n' := min (e - i) n
        if _h : index < i + n' ∧ 0 < n' ∧ i + n' ≤ N then
          match spanRuns N used rel (i + n') with
          | none => none
          | some L => some ((i, n', r) :: L)
        else none
termination_by N - index
decreasing_by omega

end Verif.PageTracker
