import Verif.RangeTracker.Model
import Verif.Bitmap.Lemmas
/-!
Specification vocabulary for the page-run tracker (C12).  Nothing here refers to how the tracker
searches: a page is used or free, and a free run is a range of free pages.
-/
namespace Verif.RangeTracker
open Verif.Bitmap

/-- `[i, i + len)` lies in `[0, N)` and is entirely free. -/
def Free (b : Nat → Bool) (N i len : Nat) : Prop :=
  i + len ≤ N ∧ ∀ j, i ≤ j → j < i + len → b j = false

/-- `L` is the length of the longest free range: a range of `len` pages is free somewhere exactly
when `len ≤ L`. -/
def LongestFree (b : Nat → Bool) (N L : Nat) : Prop :=
  ∀ len, (∃ i, Free b N i len) ↔ len ≤ L

/-- A maximal free range ("hole"): it cannot be extended on either side. -/
structure Run (b : Nat → Bool) (N i len : Nat) : Prop where
  pos : 0 < len
  free : Free b N i len
  left : 0 < i → b (i - 1) = true
  right : i + len < N → b (i + len) = true

/-- Best fit: `i` starts a hole of `len ≥ n` pages, no hole that fits is smaller, and among equally
small ones `i` is the lowest-addressed. -/
structure BestFit (b : Nat → Bool) (N n i len : Nat) : Prop where
  run : Run b N i len
  fits : n ≤ len
  smallest : ∀ i' len', Run b N i' len' → n ≤ len' → len ≤ len'
  lowest : ∀ i', Run b N i' len → i ≤ i'

/-- The tracker's fields are exact for its bitmap. -/
structure Exact (N : Nat) (t : RT) : Prop where
  wf : WF N t.bits
  longest : LongestFree (bitAt t.bits) N t.longestFree
  used : t.nused = (List.range N).countP (bitAt t.bits)

end Verif.RangeTracker
