import Verif.PageTracker.Model
/-
Model of `HugeRegion` and `HugeRegionSet`, /repo/tcmalloc/huge_region.h: runs of pages allocated from regions of many
hugepages, which are backed on demand and unbacked when a hugepage is empty.

`H` = `kNumHugePages` (hugepages per region), `N` = `kPagesPerHugePage`.  `none` = a failed check or assertion, an
array index out of bounds or a counter below zero.  The kernel's answer to the `k`-th call of `unback_` is `ok k`;
`unback_` keeps the page heap's lock (huge_page_aware_allocator.h: `Unback`), so every function here is one step.
Simplifications: arrays are functions on indices (accesses beyond `H` are `none`); within a region pages are counted
from its first page (the region starts at a hugepage, so `HugePageContaining(p) - location_.start()` is
`(p - first page) / N`); printing and VMA naming are omitted; the intrusive list of regions is a list of identities
(the linked list itself is verified in `LinkedList/`).
-/
namespace Verif.HugeRegion
open Verif.Bitmap Verif.RangeTracker
open Verif.PageTracker (Call)

/-- The data members, huge_region.h:143-166; `loc` is the first hugepage of `location_`. -/
structure R where
  loc : Nat
  trk : RT
  used : Nat → Nat
  backed : Nat → Bool
  nbacked : Nat
  totalUnbacked : Nat
  freeBacked : Nat

def upd {β : Type} (f : Nat → β) (a : Nat) (b : β) : Nat → β := fun x => if x = a then b else f x
/-- Assigning to the elements `i .. j - 1` of an array. -/
def fill {β : Type} (f : Nat → β) (i j : Nat) (b : β) : Nat → β := fun x => if i ≤ x ∧ x < j then b else f x

/-- The constructor, huge_region.h:285-305. -/
def R.new (H N loc : Nat) : R :=
  { loc, trk := clear (H * N), used := fun _ => 0, backed := fun _ => false, nbacked := 0, totalUnbacked := 0,
    freeBacked := 0 }

/-- One iteration of `Inc`, huge_region.h:461-478: hugepage `i`, `here` pages. -/
def incOne (H N : Nat) (r : R) (i here : Nat) : Option (R × Bool) :=
  if H ≤ i then none else
  if r.used i + here ≤ N then
    let r1 := { r with used := upd r.used i (r.used i + here) }
    if r.used i = 0 then
      if r.backed i then (subCount r.freeBacked 1).map fun c => ({ r1 with freeBacked := c }, false)
      else some ({ r1 with backed := upd r.backed i true, nbacked := r.nbacked + 1 }, true)
    else some (r1, false)
  else none

/-- `Inc`, huge_region.h:458-481, for `n` pages from page `q` of the region on; the second result is
`*from_released`.  The guard on `here` is for termination only. -/
def inc (H N : Nat) (r : R) (q n : Nat) (back : Bool) : Option (R × Bool) :=
  if n = 0 then some (r, back) else
  let here := min n ((q / N + 1) * N - q)
  match incOne H N r (q / N) here with
  | none => none
  | some (r1, b) => if _h : 0 < here ∧ here ≤ n then inc H N r1 (q + here) (n - here) (back || b) else none
termination_by n
decreasing_by omega

/-- One iteration of `Dec`, huge_region.h:486-499; the second result: did the hugepage become empty? -/
def decOne (H : Nat) (r : R) (i here : Nat) : Option (R × Bool) :=
  if H ≤ i then none else
  if 0 < here ∧ here ≤ r.used i ∧ r.backed i = true then
    let r1 := { r with used := upd r.used i (r.used i - here) }
    if r.used i - here = 0 then some ({ r1 with freeBacked := r.freeBacked + 1 }, true) else some (r1, false)
  else none

/-- The loop of `Dec`, huge_region.h:483-500; `sh` is `should_unback`. -/
def decLoop (H N : Nat) (r : R) (q n : Nat) (sh : Nat → Bool) : Option (R × (Nat → Bool)) :=
  if n = 0 then some (r, sh) else
  let here := min n ((q / N + 1) * N - q)
  match decOne H r (q / N) here with
  | none => none
  | some (r1, e) =>
    if _h : 0 < here ∧ here ≤ n then
      decLoop H N r1 (q + here) (n - here) (if e then upd sh (q / N) true else sh)
    else none
termination_by n
decreasing_by omega

/-- The inner loop of `UnbackHugepages`, huge_region.h:515-518. -/
def runEnd (H : Nat) (sh : Nat → Bool) (j : Nat) : Nat :=
  if j < H ∧ sh j = true then runEnd H sh (j + 1) else j
termination_by H - j
decreasing_by omega

/-- The sum of `pages_used_` over `i .. j - 1`, huge_region.h:530-533 and 556-559. -/
def usedSum (used : Nat → Nat) (i j : Nat) : Nat := ((List.range' i (j - i)).map used).sum

/-- One run of hugepages `i .. j - 1` in `UnbackHugepages`, huge_region.h:520-563; `ok`: does the kernel unback it? -/
def unbackRun (H N : Nat) (r : R) (i j : Nat) (ok : Bool) : Option R :=
  match mark (H * N) r.trk (i * N) ((j - i) * N) with
  | none => none
  | some t1 =>
    if usedSum r.used i j = 0 then
      let r1 := { r with trk := t1, used := fill r.used i j N }
      match subCount r1.freeBacked (j - i) with
      | none => none
      | some fb =>
        let r2 := { r1 with freeBacked := fb }
        match (if ok then (subCount r2.nbacked (j - i)).map fun nb =>
                 { r2 with nbacked := nb, totalUnbacked := r2.totalUnbacked + (j - i),
                           backed := fill r2.backed i j false }
               else some { r2 with freeBacked := r2.freeBacked + (j - i) }) with
        | none => none
        | some r3 =>
          if usedSum r3.used i j = (j - i) * N then
            match unmark (H * N) r3.trk (i * N) ((j - i) * N) with
            | none => none
            | some t2 => some { r3 with used := fill r3.used i j 0, trk := t2 }
          else none
    else none

/-- `UnbackHugepages`, huge_region.h:506-569, from hugepage `i` on; returns the number of hugepages released and the
calls made (hugepages counted from the start of the region).  The guard on the run is for termination only. -/
def unbackLoop (H N : Nat) (r : R) (sh : Nat → Bool) (ok : Nat → Bool) (i released : Nat) (calls : List Call) :
    Option (R × Nat × List Call) :=
  if _h : i < H then
    if sh i then
      let j := runEnd H sh i
      match unbackRun H N r i j (ok calls.length) with
      | none => none
      | some r1 =>
        if _h : i < j then
          unbackLoop H N r1 sh ok j (if ok calls.length then released + (j - i) else released)
            (calls ++ [⟨i, j - i, ok calls.length⟩])
        else none
    else unbackLoop H N r sh ok (i + 1) released calls
  else some (r, released, calls)
termination_by H - i
decreasing_by all_goals omega

def unbackHugepages (H N : Nat) (r : R) (sh : Nat → Bool) (ok : Nat → Bool) : Option (R × Nat × List Call) :=
  unbackLoop H N r sh ok 0 0 []

/-- `MaybeGet`, huge_region.h:307-318: the page and `*from_released`, or inner `none` for `return false`. -/
def maybeGet (H N : Nat) (r : R) (n : Nat) : Option (R × Option (Nat × Bool)) :=
  if r.trk.longestFree < n then some (r, none) else
  if 0 < n then
    match findAndMark (H * N) r.trk n with
    | none => none
    | some (t, index) =>
      match inc H N { r with trk := t } index n false with
      | none => none
      | some (r1, b) => some (r1, some (r.loc * N + index, b))
  else none

/-- `Put`, huge_region.h:321-326, and `Dec`, huge_region.h:483-504. -/
def put (H N : Nat) (r : R) (p n : Nat) (release : Bool) (ok : Nat → Bool) : Option (R × List Call) :=
  match subCount p (r.loc * N) with
  | none => none
  | some index =>
    match unmark (H * N) r.trk index n with
    | none => none
    | some t =>
      match decLoop H N { r with trk := t } index n (fun _ => false) with
      | none => none
      | some (r1, sh) =>
        if release then (unbackHugepages H N r1 sh ok).map fun x => (x.1, x.2.2) else some (r1, [])

/-- The selection loop of `Release`, huge_region.h:346-353, over the hugepages in `order`. -/
def selectLoop (N : Nat) (r : R) (toRelease : Nat) : List Nat → Nat → (Nat → Bool) → (Nat → Bool)
  | [], _, sh => sh
  | i :: is, target, sh =>
    let c := r.backed i && r.used i == 0
    let sh' := if c then upd sh i true else sh
    let target' := if c then target + 1 else target
    if toRelease ≤ target' * N then sh' else selectLoop N r toRelease is target' sh'

/-- `Release`, huge_region.h:333-355. -/
def release (H N : Nat) (r : R) (desired : Nat) (adaptive : Bool) (ok : Nat → Bool) : Option (R × Nat × List Call) :=
  if desired = 0 then some (r, 0, []) else
  let order := if adaptive then (List.range H).reverse else List.range H
  unbackHugepages H N r (selectLoop N r (min desired (r.freeBacked * N)) order 0 (fun _ => false)) ok

/-- `unmapped_pages`, `free_pages`, huge_region.h:118-121. -/
def R.unmappedPages (H N : Nat) (r : R) : Option Nat := (subCount H r.nbacked).map (· * N)
def R.freePages (H N : Nat) (r : R) : Option Nat := do
  let u ← r.unmappedPages H N
  let x ← subCount (H * N) u
  subCount x r.trk.nused

/-- The inner loop of `AddSpanStats`, huge_region.h:372-380: `n` pages left from page `q` in hugepage `i`, `tr` taken
so far.  Guard on `here` for termination only. -/
def truncate (H N : Nat) (backed : Nat → Bool) (b : Bool) (q n i tr : Nat) : Option Nat :=
  if n = 0 then some tr else
  if H ≤ i then none else
  if backed i = b then
    let here := min n ((i + 1) * N - q)
    if i + 1 < H ∨ n - here = 0 then
      if _h : 0 < here then truncate H N backed b (q + here) (n - here) (i + 1) (tr + here) else none
    else none
  else some tr
termination_by n
decreasing_by omega

/-- The loop of `AddSpanStats`, huge_region.h:357-408, as the list of reported runs (first page, length, released);
guard for termination only. -/
def spanRuns (H N : Nat) (r : R) (index : Nat) : Option (List (Nat × Nat × Bool)) :=
  match nextFreeRange (H * N) r.trk.bits index with
  | none => none
  | some none => some []
  | some (some (q, n)) =>
    if H ≤ q / N then none else
    match truncate H N r.backed (r.backed (q / N)) q n (q / N) 0 with
    | none => none
    | some m =>
      if _h : index < q + m ∧ q + m ≤ H * N then
        (spanRuns H N r (q + m)).map fun L => (q, m, !r.backed (q / N)) :: L
      else none
termination_by H * N - index
decreasing_by omega

/-- Pages of the reported runs that are released (`rel = true`) or not. -/
def runPages (rel : Bool) (L : List (Nat × Nat × Bool)) : Nat :=
  ((L.filter fun x => x.2.2 == rel).map fun x => x.2.1).sum

/-- `AddSpanStats` with its final checks, huge_region.h:409-410. -/
def addSpanStats (H N : Nat) (r : R) : Option (List (Nat × Nat × Bool)) := do
  let L ← spanRuns H N r 0
  let f ← r.freePages H N
  let u ← r.unmappedPages H N
  if runPages false L = f ∧ runPages true L = u then some L else none

/-! ### The set of regions -/

/-- huge_region.h:276-281; `reg id` is the region with identity `id`. -/
structure S where
  ids : List Nat
  reg : Nat → R
  n : Nat
  more : Bool
  freeBacked : Nat
  lowater : Nat

/-- huge_region.h:174-178. -/
def S.init (more : Bool) (reg : Nat → R) : S := { ids := [], reg, n := 0, more, freeBacked := 0, lowater := 0 }

/-- `longest_free()` of a region. -/
def S.lf (s : S) (id : Nat) : Nat := (s.reg id).trk.longestFree

/-- The loop of `Rise`, huge_region.h:238-244, over the regions before `r`, nearest first; `passed` are those already
passed. -/
def riseLoop (lf : Nat → Nat) (r : Nat) : List Nat → List Nat → List Nat
  | [], passed => r :: passed
  | x :: xs, passed => if lf r < lf x then riseLoop lf r xs (x :: passed) else xs.reverse ++ x :: r :: passed

/-- `Rise`, huge_region.h:232-245, with the list split at `r`. -/
def rise (lf : Nat → Nat) (A : List Nat) (r : Nat) (B : List Nat) : List Nat :=
  match A.reverse with
  | [] => A ++ r :: B
  | p :: ps => if lf r < lf p then riseLoop lf r (p :: ps) [] ++ B else A ++ r :: B

/-- The loop of `Fall`, huge_region.h:254-260, over the regions after `r`. -/
def fallLoop (lf : Nat → Nat) (r : Nat) : List Nat → List Nat
  | [] => [r]
  | x :: xs => if lf x < lf r then x :: fallLoop lf r xs else r :: x :: xs

/-- `Fall`, huge_region.h:248-261, with the list split at `r`. -/
def fall (lf : Nat → Nat) (A : List Nat) (r : Nat) (B : List Nat) : List Nat :=
  match B with
  | [] => A ++ r :: B
  | x :: _ => if lf x < lf r then A ++ fallLoop lf r B else A ++ r :: B

/-- The list split at the first `r`; `none` if it is not on the list (`list_.at(r)`). -/
def splitAt (r : Nat) : List Nat → Option (List Nat × List Nat)
  | [] => none
  | x :: xs => if x = r then some ([], xs) else (splitAt r xs).map fun y => (x :: y.1, y.2)

/-- `Fix`, huge_region.h:224-229. -/
def fix (lf : Nat → Nat) (l : List Nat) (r : Nat) : Option (List Nat) := do
  let (A, B) ← splitAt r l
  let (A', B') ← splitAt r (rise lf A r B)
  some (fall lf A' r B')

/-- `AddToList`, huge_region.h:264-274. -/
def addToList (lf : Nat → Nat) (r : Nat) : List Nat → List Nat
  | [] => [r]
  | x :: xs => if lf r < lf x then r :: x :: xs else x :: addToList lf r xs

/-- What follows a change of region `id`: the list is put in order. -/
def S.fixed (s : S) (id : Nat) : Option S := (fix s.lf s.ids id).map fun l => { s with ids := l }

/-- The loop of `MaybeGet`, huge_region.h:577-589, over the regions still to be tried. -/
def getLoop (H N : Nat) (s : S) (n : Nat) : List Nat → Option (S × Option (Nat × Nat × Bool))
  | [] => some (s, none)
  | id :: rest =>
    match maybeGet H N (s.reg id) n with
    | none => none
    | some (_, none) => getLoop H N s n rest
    | some (r, some (p, rel)) =>
      match subCount (s.reg id).freeBacked r.freeBacked with
      | none => none
      | some diff =>
        match subCount s.freeBacked diff with
        | none => none
        | some fb =>
          (S.fixed { s with reg := upd s.reg id r, freeBacked := fb, lowater := min s.lowater fb } id).map
            fun s' => (s', some (id, p, rel))

/-- `MaybeGet`, huge_region.h:574-591; the answer names the region, the page and `*from_released`. -/
def S.maybeGet (H N : Nat) (s : S) (n : Nat) : Option (S × Option (Nat × Nat × Bool)) := getLoop H N s n s.ids

/-- `location_.contains(p)`, huge_pages.h:343-344. -/
def R.contains (H N : Nat) (r : R) (p : Nat) : Bool := decide (r.loc ≤ p / N ∧ p / N - r.loc < H)

/-- `MaybePut`, huge_region.h:594-613; the second result is the region the run was returned to and the calls made. -/
def S.maybePut (H N : Nat) (s : S) (p n : Nat) (ok : Nat → Bool) : Option (S × Option (Nat × List Call)) :=
  match s.ids.find? (fun id => (s.reg id).contains H N p) with
  | none => some (s, none)
  | some id =>
    match put H N (s.reg id) p n (!s.more) ok with
    | none => none
    | some (r, calls) =>
      match subCount r.freeBacked (s.reg id).freeBacked with
      | none => none
      | some diff =>
        (S.fixed { s with reg := upd s.reg id r, freeBacked := s.freeBacked + diff } id).map
          fun s' => (s', some (id, calls))

/-- `Contribute`, huge_region.h:616-621. -/
def S.contribute (s : S) (id : Nat) (r : R) : S :=
  let s1 := { s with n := s.n + 1, freeBacked := s.freeBacked + r.freeBacked, reg := upd s.reg id r }
  { s1 with ids := addToList s1.lf id s.ids }

/-- The calls of a `ReleasePages`: region and call. -/
abbrev Log := List (Nat × Call)

/-- The loops of `ReleasePages`, huge_region.h:638-657, over the regions in the order they are visited; `ok id` are
the answers to the calls made for region `id`.  `released` counts pages. -/
def relLoop (H N : Nat) (toRelease : Nat) (adaptive : Bool) (ok : Nat → Nat → Bool) :
    List Nat → S → Nat → Log → Option (S × Nat × Log)
  | [], s, released, log => some (s, released, log)
  | id :: rest, s, released, log =>
    if toRelease ≤ released then some (s, released, log) else
    match release H N (s.reg id) (toRelease - released) adaptive (ok id) with
    | none => none
    | some (r, hl, calls) =>
      relLoop H N toRelease adaptive ok rest { s with reg := upd s.reg id r } (released + hl * N)
        (log ++ calls.map fun c => (id, c))

/-- `HLFromPages`, huge_pages.h:140-143. -/
def hlFromPages (N pages : Nat) : Nat := pages / N + (if pages % N ≠ 0 then 1 else 0)

/-- `ReleasePages`, huge_region.h:623-665.  `frac` stands for the floating-point tenth of the free backed pages
(huge_region.h:633-635). -/
def S.releasePages (H N : Nat) (s : S) (desired : Nat) (adaptive hitLimit : Bool) (frac : Nat)
    (ok : Nat → Nat → Bool) : Option (S × Nat × Log) :=
  let toRelease := if hitLimit then desired else if adaptive then s.lowater * N else frac
  match relLoop H N toRelease adaptive ok (if adaptive then s.ids.reverse else s.ids) s 0 [] with
  | none => none
  | some (s1, released, log) =>
    match subCount s1.freeBacked (hlFromPages N released) with
    | none => none
    | some fb => some ({ s1 with freeBacked := fb, lowater := fb }, released, log)

/-- The fields of `BackingStats` in pages. -/
structure PStats where
  system : Nat
  free : Nat
  unmapped : Nat
  deriving Repr, DecidableEq

/-- `HugeRegion::stats`, huge_region.h:450-456. -/
def R.stats (H N : Nat) (r : R) : Option PStats := do
  let f ← r.freePages H N
  let u ← r.unmappedPages H N
  some ⟨H * N, f, u⟩

/-- `HugeRegionSet::stats`, huge_region.h:722-730. -/
def statsLoop (H N : Nat) (s : S) : List Nat → Option PStats
  | [] => some ⟨0, 0, 0⟩
  | id :: rest => do
    let a ← (s.reg id).stats H N
    let b ← statsLoop H N s rest
    some ⟨a.system + b.system, a.free + b.free, a.unmapped + b.unmapped⟩

def S.stats (H N : Nat) (s : S) : Option PStats := statsLoop H N s s.ids

end Verif.HugeRegion
