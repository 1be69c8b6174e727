import Verif.Bitmap.Model
/-
Model of `RangeTracker<N>` from /repo/tcmalloc/internal/range_tracker.h, on top of the word-level
`Bitmap<N>` model.

`none` is a failed `TC_CHECK`/`TC_ASSERT`, or a value that does not fit the `Count` type (which is
only as wide as needed for `[0, N]`).
-/
namespace Verif.RangeTracker
open Verif.Bitmap

/-- The data members, range_tracker.h:125 (`bits_`) and 208-210. -/
structure RT where
  bits : List Word
  longestFree : Nat
  nused : Nat
  nallocs : Nat
deriving Repr, DecidableEq

/-- Storing into a `Count` (range_tracker.h:206): the type holds `[0, N]`; anything larger would be
truncated, which the model reports as `none`. -/
def toCount (N x : Nat) : Option Nat := if x ≤ N then some x else none

/-- Subtracting from a `Count`; wrapping below zero is reported as `none`. -/
def subCount (x y : Nat) : Option Nat := if y ≤ x then some (x - y) else none

/-- `RangeTracker()` and `Clear()`, range_tracker.h:140-141 and 334-340. -/
def clear (N : Nat) : RT := { bits := Bitmap.empty N, longestFree := N, nused := 0, nallocs := 0 }

/-- The locals of `FindAndMark`, range_tracker.h:238-245. -/
structure Scan where
  longest : Nat
  second : Nat
  bestIndex : Nat
  bestLen : Nat

/-- One iteration's updates to the locals, range_tracker.h:250-260. -/
def Scan.visit (s : Scan) (n index len : Nat) : Scan :=
  let s1 :=
    if len > s.longest then { s with second := s.longest, longest := len }
    else if len > s.second then { s with second := len }
    else s
  if len ≥ n ∧ len < s1.bestLen then { s1 with bestIndex := index, bestLen := len } else s1

/-- The `while` loop of `FindAndMark`, range_tracker.h:249-263.  The guard on the returned range is
there for termination only; it always holds (`scan_spec`). -/
def scan (N : Nat) (ws : List Word) (n index : Nat) (s : Scan) : Option Scan :=
  match nextFreeRange N ws index with
  | none => none
  | some none => some s
  | some (some (i, len)) =>
    if _h : index < i + len ∧ i + len ≤ N then scan N ws n (i + len) (s.visit n i len) else none
termination_by N - index
decreasing_by omega

/-- `RangeTracker::FindAndMark`, range_tracker.h:234-276. -/
def findAndMark (N : Nat) (t : RT) (n : Nat) : Option (RT × Nat) :=
  if n > 0 then
    match scan N t.bits n 0 { longest := 0, second := 0, bestIndex := N, bestLen := 2 * N } with
    | none => none
    | some s =>
      if s.bestIndex < N then
        match setRangeValue true N t.bits s.bestIndex n with
        | none => none
        | some bits =>
          let longest :=
            if s.bestLen = s.longest then
              (if s.longest - n < s.second then s.second else s.longest - n)
            else s.longest
          match toCount N longest, toCount N (t.nused + n), toCount N (t.nallocs + 1) with
          | some l, some u, some a => some ({ bits, longestFree := l, nused := u, nallocs := a }, s.bestIndex)
          | _, _, _ => none
      else none
  else none

/-- The recomputation loop of `Mark`, range_tracker.h:292-298. -/
def rescan (N : Nat) (ws : List Word) (index longest : Nat) : Option Nat :=
  match nextFreeRange N ws index with
  | none => none
  | some none => some longest
  | some (some (i, len)) =>
    if _h : index < i + len ∧ i + len ≤ N then
      rescan N ws (i + len) (if len > longest then len else longest)
    else none
termination_by N - index
decreasing_by omega

/-- `RangeTracker::Mark`, range_tracker.h:280-301. -/
def mark (N : Nat) (t : RT) (index n : Nat) : Option RT :=
  match findSet N t.bits index with
  | none => none
  | some r =>
    if r ≥ index + n then
      match setRangeValue true N t.bits index n with
      | none => none
      | some bits =>
        match rescan N bits 0 0 with
        | none => none
        | some longest =>
          match toCount N longest, toCount N (t.nused + n), toCount N (t.nallocs + 1) with
          | some l, some u, some a => some { bits, longestFree := l, nused := u, nallocs := a }
          | _, _, _ => none
    else none

/-- `RangeTracker::Unmark`, range_tracker.h:305-320. -/
def unmark (N : Nat) (t : RT) (index n : Nat) : Option RT :=
  match findClear N t.bits index with
  | none => none
  | some r =>
    if r ≥ index + n then
      match setRangeValue false N t.bits index n, subCount t.nused n, subCount t.nallocs 1 with
      | some bits, some u, some a =>
        match findSet N bits (index + n - 1), findValueBackwards true N bits index with
        | some lim, some back =>
          let idx := (back + 1).toNat
          let len := lim - idx
          match toCount N (if len > t.longestFree then len else t.longestFree) with
          | none => none
          | some l => some { bits, longestFree := l, nused := u, nallocs := a }
        | _, _ => none
      | _, _, _ => none
    else none

end Verif.RangeTracker
