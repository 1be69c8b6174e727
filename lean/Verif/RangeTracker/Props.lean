import Verif.RangeTracker.Lemmas
import Verif.Util
/-!
C12: the page-run tracker hands out disjoint ranges, best fit, with exact counters, over every
history of allocations and frees.
-/
namespace Verif.RangeTracker
open Verif.Bitmap

/-- Histories of a tracker for `N` items: `live` is the list of ranges handed out (or marked) and not
yet returned.  The client returns only live ranges, whole (range_tracker.h:163-164), and marks only
free ranges (range_tracker.h:160). -/
inductive Hist (N : Nat) : RT → List (Nat × Nat) → Prop
  | new : Hist N (clear N) []
  | find {t live t' n i} : Hist N t live → findAndMark N t n = some (t', i) →
      Hist N t' ((i, n) :: live)
  | mark {t live t' i n} : Hist N t live → 0 < n → Free (bitAt t.bits) N i n →
      mark N t i n = some t' → Hist N t' ((i, n) :: live)
  | unmark {t live t' i n} : Hist N t live → (i, n) ∈ live → unmark N t i n = some t' →
      Hist N t' (live.erase (i, n))
  | clear {t live} : Hist N t live → Hist N (clear N) []

/-- Two ranges have no item in common. -/
def Disjoint (r s : Nat × Nat) : Prop := ∀ j, ¬((r.1 ≤ j ∧ j < r.1 + r.2) ∧ (s.1 ≤ j ∧ j < s.1 + s.2))

/-- What is true of the tracker after any history. -/
structure Good (N : Nat) (t : RT) (live : List (Nat × Nat)) : Prop where
  exact : Exact N t
  inside : ∀ r ∈ live, 0 < r.2 ∧ r.1 + r.2 ≤ N
  disjoint : live.Pairwise Disjoint
  used : ∀ j, bitAt t.bits j = true ↔ ∃ r ∈ live, r.1 ≤ j ∧ j < r.1 + r.2
  nallocs : t.nallocs = live.length
  nused : t.nused = (live.map (·.2)).sum

theorem sum_ge_length {live : List (Nat × Nat)} (h : ∀ r ∈ live, 0 < r.2 ∧ r.1 + r.2 ≤ N) :
    live.length ≤ (live.map (·.2)).sum := by
  induction live with
  | nil => simp
  | cons r l ih =>
    have h1 := h r (by simp)
    have h2 := ih (fun r hr => h r (List.mem_cons_of_mem _ hr))
    simp only [List.length_cons, List.map_cons, List.sum_cons]
    omega

theorem sum_erase {live : List (Nat × Nat)} {r : Nat × Nat} (h : r ∈ live) :
    ((live.erase r).map (·.2)).sum + r.2 = (live.map (·.2)).sum := by
  induction live with
  | nil => simp at h
  | cons x l ih =>
    by_cases hx : x = r
    · subst hx; simp [Nat.add_comm]
    · rw [List.erase_cons_tail (by simpa using hx)]
      have := ih (by rcases List.mem_cons.1 h with h | h
                     · exact absurd h.symm hx
                     · exact h)
      simp only [List.map_cons, List.sum_cons]
      omega

theorem Good.add {t t' : RT} {live : List (Nat × Nat)} {i n : Nat} (h : Good N t live) (hn : 0 < n)
    (hf : Free (bitAt t.bits) N i n)
    (hb : ∀ j, bitAt t'.bits j = if i ≤ j ∧ j < i + n then true else bitAt t.bits j)
    (he : Exact N t') (hu : t'.nused = t.nused + n) (ha : t'.nallocs = t.nallocs + 1) :
    Good N t' ((i, n) :: live) := by
  refine ⟨he, ?_, ?_, ?_, ?_, ?_⟩
  · intro r hr
    rcases List.mem_cons.1 hr with hr | hr
    · subst hr; exact ⟨hn, hf.1⟩
    · exact h.inside r hr
  · rw [List.pairwise_cons]
    refine ⟨?_, h.disjoint⟩
    intro r hr j hj
    have h1 := (h.used j).2 ⟨r, hr, hj.2⟩
    rw [hf.2 j hj.1.1 hj.1.2] at h1; simp at h1
  · intro j
    rw [hb]
    constructor
    · intro hh
      split at hh
      · rename_i hc; exact ⟨(i, n), by simp, hc⟩
      · obtain ⟨r, hr, hc⟩ := (h.used j).1 hh
        exact ⟨r, List.mem_cons_of_mem _ hr, hc⟩
    · rintro ⟨r, hr, hc⟩
      rcases List.mem_cons.1 hr with hr | hr
      · subst hr; rw [if_pos hc]
      · split
        · rfl
        · exact (h.used j).2 ⟨r, hr, hc⟩
  · rw [ha, h.nallocs]; rfl
  · rw [hu, h.nused]; simp [Nat.add_comm]

theorem Good.allocs_le {t : RT} {live : List (Nat × Nat)} (h : Good N t live) :
    t.nallocs ≤ t.nused := by
  rw [h.nallocs, h.nused]; exact sum_ge_length h.inside

theorem Good.live_set {t : RT} {live : List (Nat × Nat)} (h : Good N t live) {i n : Nat}
    (hm : (i, n) ∈ live) : ∀ j, i ≤ j → j < i + n → bitAt t.bits j = true :=
  fun j h1 h2 => (h.used j).2 ⟨_, hm, h1, h2⟩

theorem Good.pos {t : RT} {live : List (Nat × Nat)} (h : Good N t live) {r : Nat × Nat}
    (hm : r ∈ live) : 1 ≤ t.nallocs := by
  rw [h.nallocs]; exact List.length_pos_of_mem hm

/-- In a live list a range occurs once (it is non-empty and overlaps itself). -/
theorem Good.nodup {t : RT} {live : List (Nat × Nat)} (h : Good N t live) : live.Nodup := by
  have h1 := h.disjoint
  have h2 := h.inside
  clear h
  induction live with
  | nil => exact List.nodup_nil
  | cons r l ih =>
    rw [List.pairwise_cons] at h1
    rw [List.nodup_cons]
    refine ⟨?_, ih h1.2 (fun r hr => h2 r (List.mem_cons_of_mem _ hr))⟩
    intro hm
    have := h2 r (by simp)
    exact h1.1 r hm r.1 ⟨⟨Nat.le_refl _, by omega⟩, ⟨Nat.le_refl _, by omega⟩⟩

theorem Good.remove {t t' : RT} {live : List (Nat × Nat)} {i n : Nat} (h : Good N t live)
    (hm : (i, n) ∈ live)
    (hb : ∀ j, bitAt t'.bits j = if i ≤ j ∧ j < i + n then false else bitAt t.bits j)
    (he : Exact N t') (hu : t'.nused + n = t.nused) (ha : t'.nallocs + 1 = t.nallocs) :
    Good N t' (live.erase (i, n)) := by
  have hnd := h.nodup
  refine ⟨he, fun r hr => h.inside r (List.mem_of_mem_erase hr),
    h.disjoint.sublist List.erase_sublist, ?_, ?_, ?_⟩
  · intro j
    rw [hb]
    constructor
    · intro hh
      split at hh
      · simp at hh
      · rename_i hc
        obtain ⟨r, hr, hc2⟩ := (h.used j).1 hh
        refine ⟨r, (List.mem_erase_of_ne ?_).2 hr, hc2⟩
        intro e; subst e; exact hc hc2
    · rintro ⟨r, hr, hc⟩
      rw [hnd.mem_erase_iff] at hr
      have hd : Disjoint r (i, n) := by
        have hp := h.disjoint
        exact pairwise_forall (fun a b hab j hj => hab j ⟨hj.2, hj.1⟩) hp hr.2 hm hr.1
      rw [if_neg (fun hc2 => hd j ⟨hc, hc2⟩)]
      exact (h.used j).2 ⟨r, hr.2, hc⟩
  · rw [List.length_erase_of_mem hm, ← h.nallocs]; omega
  · have := sum_erase hm
    have := h.nused
    simp only at *
    omega

theorem good_of_hist {N : Nat} {t : RT} {live : List (Nat × Nat)} (h : Hist N t live) :
    Good N t live := by
  have hclear : Good N (clear N) [] := by
    refine ⟨exact_clear N, by simp, List.Pairwise.nil, ?_, rfl, rfl⟩
    intro j
    show bitAt (Bitmap.empty N) j = true ↔ _
    rw [bitAt_empty]; simp
  induction h with
  | new => exact hclear
  | @find t live t' n i _ hf ih =>
    by_cases hn : 0 < n
    · by_cases hfit : n ≤ t.longestFree
      · obtain ⟨t2, i2, len, e, hb, hbits, hex, hu, ha⟩ :=
          findAndMark_spec ih.exact ih.allocs_le hn hfit
        rw [hf] at e
        simp only [Option.some.injEq, Prod.mk.injEq] at e
        obtain ⟨rfl, rfl⟩ := e
        exact ih.add hn ⟨by have := hb.run.free.1; have := hb.fits; omega,
          fun j h1 h2 => hb.run.free.2 j h1 (by have := hb.fits; omega)⟩ hbits hex hu ha
      · rw [findAndMark_none ih.exact (by omega)] at hf; simp at hf
    · unfold findAndMark at hf; rw [if_neg hn] at hf; simp at hf
  | @mark t live t' i n _ hn hfree hf ih =>
    obtain ⟨t2, e, hbits, hex, hu, ha⟩ := mark_spec ih.exact ih.allocs_le hn hfree
    rw [hf] at e
    simp only [Option.some.injEq] at e
    subst e
    exact ih.add hn hfree hbits hex hu ha
  | @unmark t live t' i n _ hm hf ih =>
    have hin := ih.inside _ hm
    obtain ⟨t2, e, hbits, hex, hu, ha⟩ := unmark_spec ih.exact (ih.pos hm) hin.1 hin.2
      (ih.live_set hm)
    rw [hf] at e
    simp only [Option.some.injEq] at e
    subst e
    exact ih.remove hm hbits hex hu ha
  | clear _ _ => exact hclear

/-- **C12, disjointness and exact counters.**  After every history: live ranges lie in `[0, N)` and
are pairwise disjoint; an item is marked iff it belongs to a live range; `allocs()` is the number of
live ranges, `used()` their total length, and `longest_free()` the length of the longest free range
(never an under- or over-estimate). -/
theorem tracker_exact (N : Nat) (t : RT) (live : List (Nat × Nat)) (h : Hist N t live) :
    (∀ r ∈ live, 0 < r.2 ∧ r.1 + r.2 ≤ N) ∧ live.Pairwise Disjoint ∧
    (∀ j, bitAt t.bits j = true ↔ ∃ r ∈ live, r.1 ≤ j ∧ j < r.1 + r.2) ∧
    t.nallocs = live.length ∧ t.nused = (live.map (·.2)).sum ∧ t.nused ≤ N ∧
    LongestFree (bitAt t.bits) N t.longestFree := by
  have g := good_of_hist h
  refine ⟨g.inside, g.disjoint, g.used, g.nallocs, g.nused, ?_, g.exact.longest⟩
  rw [g.exact.used, cnt_range]; exact cnt_le _ _ _

/-- **C12, best fit.**  `FindAndMark(n)` succeeds exactly when some free range of `n ≥ 1` items
exists, and then takes the front of a smallest hole that fits, the lowest-addressed one on ties;
nothing else changes. -/
theorem find_best_fit (N : Nat) (t : RT) (live : List (Nat × Nat)) (h : Hist N t live) (n : Nat) :
    (0 < n ∧ (∃ i, Free (bitAt t.bits) N i n) →
      ∃ t' i len, findAndMark N t n = some (t', i) ∧ BestFit (bitAt t.bits) N n i len ∧
        ∀ j, bitAt t'.bits j = if i ≤ j ∧ j < i + n then true else bitAt t.bits j) ∧
    (¬(0 < n ∧ ∃ i, Free (bitAt t.bits) N i n) → findAndMark N t n = none) := by
  have g := good_of_hist h
  constructor
  · rintro ⟨hn, hf⟩
    obtain ⟨t2, i2, len, e, hb, hbits, -⟩ :=
      findAndMark_spec g.exact g.allocs_le hn ((g.exact.longest n).1 hf)
    exact ⟨t2, i2, len, e, hb, hbits⟩
  · intro hc
    by_cases hn : 0 < n
    · refine findAndMark_none g.exact ?_
      apply Classical.byContradiction
      intro hle
      exact hc ⟨hn, (g.exact.longest n).2 (by omega)⟩
    · unfold findAndMark; rw [if_neg hn]

/-- **C12, returning.**  Any live range can always be returned; exactly its items become free. -/
theorem unmark_live (N : Nat) (t : RT) (live : List (Nat × Nat)) (h : Hist N t live) (i n : Nat)
    (hm : (i, n) ∈ live) :
    ∃ t', unmark N t i n = some t' ∧
      ∀ j, bitAt t'.bits j = if i ≤ j ∧ j < i + n then false else bitAt t.bits j := by
  have g := good_of_hist h
  have hin := g.inside _ hm
  obtain ⟨t2, e, hbits, -⟩ := unmark_spec g.exact (g.pos hm) hin.1 hin.2 (g.live_set hm)
  exact ⟨t2, e, hbits⟩

/-- **C12, no leak.**  When nothing is live the tracker is as good as new: any `n ≤ N` fits. -/
theorem empty_when_all_returned (N : Nat) (t : RT) (h : Hist N t []) :
    t.nused = 0 ∧ t.nallocs = 0 ∧ t.longestFree = N := by
  have g := good_of_hist h
  refine ⟨g.nused, g.nallocs, ?_⟩
  apply g.exact.longest.unique
  intro len
  constructor
  · rintro ⟨i, h1, _⟩; omega
  · intro hle
    refine ⟨0, by omega, ?_⟩
    intro j _ _
    have := (g.used j)
    cases hb : bitAt t.bits j with
    | false => rfl
    | true => obtain ⟨r, hr, _⟩ := this.1 hb; simp at hr

/-- Non-vacuity: a 256-item tracker with two live ranges, one of them crossing a word boundary, after
an allocation was returned. -/
example : ∃ t i j k, Hist 256 t [(k, 10), (j, 100)] ∧ t.longestFree ≥ 1 ∧ i + j + k ≥ 0 := by
  obtain ⟨⟨f1, -⟩, -⟩ := And.intro (find_best_fit 256 _ _ (Hist.new (N := 256)) 30) trivial
  obtain ⟨t1, i, _, e1, _, hb1⟩ := f1 ⟨by omega, 0, by omega, fun j _ _ => bitAt_empty 256 j⟩
  have h1 := Hist.find (Hist.new (N := 256)) e1
  have g1 := good_of_hist h1
  have L1 : t1.longestFree ≥ 100 := by
    refine (g1.exact.longest 100).1 ?_
    by_cases hi : i < 100
    · exact ⟨130, by omega, fun j _ _ => by rw [hb1, if_neg (by omega)]; exact bitAt_empty 256 j⟩
    · exact ⟨0, by omega, fun j _ _ => by rw [hb1, if_neg (by omega)]; exact bitAt_empty 256 j⟩
  obtain ⟨t2, j, _, e2, b2, hb2⟩ := (find_best_fit 256 _ _ h1 100).1
    ⟨by omega, (g1.exact.longest 100).2 L1⟩
  have h2 := Hist.find h1 e2
  obtain ⟨t3, e3, hb3⟩ := unmark_live 256 _ _ h2 i 30 (by simp)
  have h3 := Hist.unmark h2 (i := i) (n := 30) (by simp) e3
  rw [List.erase_cons_tail (by simp), List.erase_cons_head] at h3
  have hin := (good_of_hist h2).inside
  have hi := hin (i, 30) (by simp)
  have hd : Disjoint (j, 100) (i, 30) := (List.pairwise_cons.1 (good_of_hist h2).disjoint).1 _ (by simp)
  obtain ⟨t4, k, _, e4, _, _⟩ := (find_best_fit 256 _ _ h3 10).1 ⟨by omega, i, by
      have := hi.2; simp only at this; omega, by
      intro m hm1 hm2
      rw [hb3, if_pos ⟨hm1, by omega⟩]⟩
  have h4 := Hist.find h3 e4
  refine ⟨t4, i, j, k, h4, ?_, by omega⟩
  have g4 := good_of_hist h4
  refine (g4.exact.longest 1).1 ?_
  apply Classical.byContradiction
  intro hno
  have hall : ∀ m, m < 256 → bitAt t4.bits m = true := by
    intro m hm
    cases hb : bitAt t4.bits m with
    | true => rfl
    | false => exact absurd ⟨m, by omega, fun q h1 h2 => by rw [show q = m by omega]; exact hb⟩ hno
  have h5 := g4.exact.used
  rw [cnt_range, cnt_true (fun q _ h => hall q (by omega))] at h5
  have h6 := g4.nused
  simp at h6
  omega

end Verif.RangeTracker
