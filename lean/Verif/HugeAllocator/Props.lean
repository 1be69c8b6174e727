import Verif.HugeAllocator.Lemmas
/-!
C18: hugepage ranges handed out never overlap, nothing is lost, the counters are exact.
-/
namespace Verif.HugeAllocator
open Verif.HugeAddressMap

/-- **C18, conservation.** In every reachable state the hugepages obtained from the system split exactly into
free ones and ones owned by callers; the free ones are held as maximal separated ranges; `system()` is the
number of hugepages obtained and `size()` (system minus in use) the number of free ones. -/
theorem conservation {a : HA} {ob : List Rng} {ow : PSet} (h : Reach a ob ow) :
    (∀ p, Cov ob p ↔ Cov (ranges a.free.root) p ∨ ow p) ∧
    (∀ p, ¬ (Cov (ranges a.free.root) p ∧ ow p)) ∧
    Sep (ranges a.free.root) ∧
    a.fromSystem = lenSum ob ∧ Disj ob ∧ a.fromSystem - a.inUse = lenSum (ranges a.free.root) ∧
    a.inUse ≤ a.fromSystem := by
  have j := h.J
  have := j.use; have := j.inv.total
  exact ⟨j.part, fun p hp => j.excl p hp.1 hp.2, j.inv.sep, j.sys, j.disj, by omega, by omega⟩

/-- **C18, get.** From every reachable state a request for `n > 0` hugepages never stops the program. It
returns either exactly `n` hugepages, none of which any caller owns, or nothing; nothing is returned, and the
state is unchanged, only if no free range is long enough and the system had none to give (or the request
exceeds the address space). The system is asked exactly when no free range is long enough. -/
theorem get_exact {a : HA} {ob : List Rng} {ow : PSet} (h : Reach a ob ow) (n : Nat) (hn : 0 < n)
    (sys : Option Rng) (hs : SysOK ob n sys) :
    ∃ a' res asked, get a n sys = some (a', res, asked) ∧
      (asked = true ↔ (∀ r ∈ ranges a.free.root, r.n < n) ∧ n ≤ maxLen) ∧
      (∀ r, res = some r → r.n = n ∧ a'.inUse = a.inUse + n ∧ ∀ p, r.Has p → ¬ ow p) ∧
      (res = none → a' = a ∧ (∀ r ∈ ranges a.free.root, r.n < n) ∧ (sys = none ∨ maxLen < n)) := by
  obtain ⟨a', res, asked, e, _, h1, h2, h3⟩ := get_spec h.J hn hs
  exact ⟨a', res, asked, e, h1, fun r hr => ⟨(h2 r hr).1, (h2 r hr).2.1, fun p hp => ((h2 r hr).2.2 p hp).1⟩, h3⟩

/-- **C18, release.** Returning any part of what a caller owns never stops the program; returning a range with
a hugepage that is already free (a double release) always does. -/
theorem release_exact {a : HA} {ob : List Rng} {ow : PSet} (h : Reach a ob ow) (r : Rng) (hr : 0 < r.n) :
    ((∀ p, r.Has p → ow p) → ∃ a', release a r = some a' ∧
      (∀ p, Cov (ranges a'.free.root) p ↔ Cov (ranges a.free.root) p ∨ r.Has p) ∧
      a'.inUse + r.n = a.inUse) ∧
    ((∃ p, r.Has p ∧ Cov ob p ∧ ¬ ow p) → release a r = none) := by
  have j := h.J
  obtain ⟨h1, h2⟩ := release_spec j hr
  constructor
  · intro how
    obtain ⟨a', e, _, c, d, _⟩ := h2 how
    exact ⟨a', e, c, d⟩
  · rintro ⟨p, hp, hc, hno⟩
    refine h1 ⟨p, hp, ?_⟩
    rcases (j.part p).1 hc with hc | hc
    · exact hc
    · exact absurd hc hno

/-- **C18, membership.** `Contains(p)` is true exactly for free hugepages. -/
theorem contains_exact {a : HA} {ob : List Rng} {ow : PSet} (h : Reach a ob ow) (p : Nat) :
    contains a p = true ↔ Cov (ranges a.free.root) p := by
  have j := h.J
  unfold contains
  rw [pred_spec p a.free.root none j.inv.sep, Option.or_none]
  cases hg : ((ranges a.free.root).filter (fun x => decide (x.s ≤ p))).getLast? with
  | none =>
    rw [List.getLast?_eq_none_iff] at hg
    simp only [Bool.false_eq_true, false_iff]
    rintro ⟨r, hr, h1, h2⟩
    have := List.filter_eq_nil_iff.1 hg r hr
    simp at this; omega
  | some r =>
    simp only []
    rw [contains_iff]
    obtain ⟨A, hA⟩ := List.getLast?_eq_some_iff.1 hg
    have hm : r ∈ (ranges a.free.root).filter (fun x => decide (x.s ≤ p)) := by rw [hA]; simp
    have hm1 := (List.mem_filter.1 hm).1
    constructor
    · intro hh; exact ⟨r, hm1, hh⟩
    · rintro ⟨q, hq, q1, q2⟩
      have hq' : q ∈ A ++ [r] := by rw [← hA]; exact List.mem_filter.2 ⟨hq, by simpa using q1⟩
      have hp := List.Pairwise.filter (fun x => decide (x.s ≤ p)) j.inv.sep.2
      rw [hA] at hp
      rcases List.mem_append.1 hq' with h' | h'
      · have := (List.pairwise_append.1 hp).2.2 q h' r (by simp)
        have := (List.mem_filter.1 hm).2
        simp at this; omega
      · simp only [List.mem_singleton] at h'; subst h'; exact ⟨q1, q2⟩

/-! ### Non-vacuity: a history with system growth, splitting, release and reuse. -/

/-- Ask for 3 (the system gives 8 at 100), ask for 2 (no system call), return the middle of the first. -/
def demoGet1 := get HA.init 3 (some ⟨100, 8⟩)

example : (demoGet1.map fun x => (x.2.1, x.2.2, ranges x.1.free.root, x.1.fromSystem, x.1.inUse)) =
    some (some ⟨100, 3⟩, true, [⟨103, 5⟩], 8, 3) := by decide +kernel

example : ∃ a ob ow, Reach a ob ow ∧ a.inUse = 3 ∧ a.fromSystem = 8 := by
  have hx : (demoGet1.map fun x => (x.1.fromSystem, x.1.inUse)) = some (8, 3) := by decide +kernel
  cases hd : demoGet1 with
  | none => rw [hd] at hx; simp at hx
  | some x =>
    obtain ⟨a, res, asked⟩ := x
    rw [hd] at hx
    simp only [Option.map_some, Option.some.injEq, Prod.mk.injEq] at hx
    refine ⟨a, _, _, Reach.get 3 (some ⟨100, 8⟩) res asked Reach.init (by omega) ?_ hd, hx.2, hx.1⟩
    intro r e
    simp only [Option.some.injEq] at e
    subst e
    exact ⟨by decide, by decide, fun p _ hc => by simp [Cov] at hc⟩

end Verif.HugeAllocator
