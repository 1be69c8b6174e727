import Verif.HugeRegion.Region
/-! `AddSpanStats` and the page totals of a region. -/
namespace Verif.HugeRegion
open Verif.Bitmap Verif.RangeTracker

variable {H N : Nat}

theorem truncate_spec (hN : 0 < N) (backed : Nat → Bool) (b : Bool) : ∀ (mm n q i tr : Nat), n ≤ mm → q + n ≤ H * N →
    (n = 0 ∨ q / N = i) →
    ∃ m, truncate H N backed b q n i tr = some (tr + m) ∧ m ≤ n ∧ (∀ p, q ≤ p → p < q + m → backed (p / N) = b) ∧
      (0 < n → backed i = b → 0 < m) ∧ (m < n → backed ((q + m) / N) ≠ b) := by
  intro mm
  induction mm with
  | zero =>
    intro n q i tr hm hq hi
    have : n = 0 := by omega
    subst this
    unfold truncate
    rw [if_pos rfl]
    exact ⟨0, rfl, Nat.le_refl _, by intro p h1 h2; omega, by intro h; omega, by intro h; omega⟩
  | succ mm ih =>
    intro n q i tr hm hq hi
    by_cases hn : n = 0
    · subst hn; exact ih 0 q i tr (by omega) hq hi
    have hqi : q / N = i := by rcases hi with h | h; exact absurd h hn; exact h
    have hiH := index_lt (H := H) (N := N) (q := q) (n := n) (by omega) hq
    rw [hqi] at hiH
    have hb := block hN q
    rw [hqi] at hb
    unfold truncate
    rw [if_neg hn, if_neg (by omega)]
    by_cases hbi : backed i = b
    · rw [if_pos hbi]
      simp only [Nat.succ_mul]
      generalize hh : min n (i * N + N - q) = h
      have hpos : 0 < h := by omega
      rw [if_pos, dif_pos hpos]
      · obtain ⟨m, e, h1, h2, h3, h4⟩ := ih (n - h) (q + h) (i + 1) (tr + h) (by omega) (by omega) (by
          by_cases hz : n - h = 0
          · exact Or.inl hz
          · right
            have : q + h = (i + 1) * N := by rw [Nat.succ_mul]; omega
            rw [this]; exact Nat.mul_div_cancel _ hN)
        refine ⟨h + m, by rw [e]; congr 1; omega, by omega, ?_, by intro _ _; omega, ?_⟩
        · intro p p1 p2
          by_cases hp : p < q + h
          · rw [block_div hN (i := i) (by omega) (by omega)]; exact hbi
          · exact h2 p (by omega) (by omega)
        · intro hlt
          have := h4 (by omega)
          rw [show q + (h + m) = q + h + m by omega]; exact this
      · by_cases hz : n - h = 0
        · exact Or.inr hz
        · left
          have h5 := block_lt (show H - 1 < H by omega) N
          apply Classical.byContradiction
          intro hc
          have h6 : H = i + 1 := by omega
          rw [h6, Nat.succ_mul] at hq
          omega
    · rw [if_neg hbi]
      exact ⟨0, rfl, by omega, by intro p h1 h2; omega, by intro _ h; exact absurd h hbi, by
        intro _; rw [Nat.add_zero, hqi]; exact hbi⟩

/-- Page `p` is free and on a hugepage that is backed (`rel = false`) or not. -/
def freeOn (N : Nat) (r : R) (rel : Bool) (p : Nat) : Bool := !bitAt r.trk.bits p && (r.backed (p / N) != rel)

theorem runPages_cons (rel : Bool) (x : Nat × Nat × Bool) (L : List (Nat × Nat × Bool)) :
    runPages rel (x :: L) = (if x.2.2 = rel then x.2.1 else 0) + runPages rel L := by
  unfold runPages
  rw [List.filter_cons]
  by_cases h : x.2.2 = rel
  · simp [h]
  · simp [h]

/-- The runs reported from page `index` on: free pages, all backed or all not, in order, complete. -/
structure Runs (H N : Nat) (r : R) (index : Nat) (L : List (Nat × Nat × Bool)) : Prop where
  inside : ∀ x ∈ L, index ≤ x.1 ∧ 0 < x.2.1 ∧ x.1 + x.2.1 ≤ H * N ∧
    ∀ p, x.1 ≤ p → p < x.1 + x.2.1 → bitAt r.trk.bits p = false ∧ r.backed (p / N) = !x.2.2
  all : ∀ p, index ≤ p → p < H * N → bitAt r.trk.bits p = false → ∃ x ∈ L, x.1 ≤ p ∧ p < x.1 + x.2.1
  sorted : L.Pairwise (fun x y => x.1 + x.2.1 ≤ y.1)
  maximal : L.Pairwise (fun x y => x.1 + x.2.1 = y.1 → x.2.2 ≠ y.2.2)
  sum : ∀ rel, runPages rel L = cnt (freeOn N r rel) index (H * N - index)

theorem spanRuns_spec (hN : 0 < N) {r : R} (hw : WF (H * N) r.trk.bits) : ∀ (m index : Nat), H * N - index ≤ m →
    ∃ L, spanRuns H N r index = some L ∧ Runs H N r index L := by
  intro m
  induction m with
  | zero =>
    intro index hm
    unfold spanRuns
    rcases nextFreeRange_spec hw index with ⟨i, len, e, h1, h2, h3, -⟩ | ⟨e, h1⟩
    · omega
    · rw [e]
      refine ⟨[], rfl, by simp, by intro p h1 h2; omega, List.Pairwise.nil, List.Pairwise.nil, ?_⟩
      intro rel
      rw [show H * N - index = 0 by omega]; rfl
  | succ m ih =>
    intro index hm
    unfold spanRuns
    rcases nextFreeRange_spec hw index with ⟨q, n, e, h1, h2, h3, h4, h5, h6⟩ | ⟨e, h1⟩
    · rw [e]
      simp only []
      have hqH := index_lt (H := H) (N := N) (q := q) (n := n) h2 h3
      rw [if_neg (by omega)]
      obtain ⟨k, t1, t2, t3, t4, t5⟩ := truncate_spec (H := H) hN r.backed (r.backed (q / N)) n n q (q / N) 0 (Nat.le_refl _)
        h3 (Or.inr rfl)
      have hk := t4 h2 rfl
      rw [t1, Nat.zero_add]
      simp only []
      rw [dif_pos (by omega)]
      obtain ⟨L, eL, hL⟩ := ih (q + k) (by omega)
      rw [eL]
      refine ⟨_, rfl, ?_, ?_, ?_, ?_, ?_⟩
      · intro x hx
        rcases List.mem_cons.1 hx with hx | hx
        · subst hx
          refine ⟨h1, hk, by simp only []; omega, ?_⟩
          intro p p1 p2
          simp only [] at p1 p2
          refine ⟨h5 p p1 (by omega), ?_⟩
          rw [t3 p p1 p2]; simp
        · have := hL.inside x hx
          exact ⟨by omega, this.2⟩
      · intro p p1 p2 p3
        by_cases hp : p < q
        · rw [h4 p p1 hp] at p3; exact absurd p3 (by simp)
        · by_cases hp2 : p < q + k
          · exact ⟨_, List.mem_cons_self, by simp only []; omega, hp2⟩
          · obtain ⟨x, hx, hh⟩ := hL.all p (by omega) p2 p3
            exact ⟨x, List.mem_cons_of_mem _ hx, hh⟩
      · rw [List.pairwise_cons]
        refine ⟨?_, hL.sorted⟩
        intro x hx
        exact (hL.inside x hx).1
      · rw [List.pairwise_cons]
        refine ⟨?_, hL.maximal⟩
        intro x hx hadj
        simp only [] at hadj ⊢
        obtain ⟨x1, x2, x3, x4⟩ := hL.inside x hx
        have hx0 := x4 x.1 (Nat.le_refl _) (by omega)
        rw [← hadj] at hx0
        have hkn : k < n := by
          apply Classical.byContradiction
          intro hc
          have hkn : k = n := by omega
          rw [hkn] at hx0
          rw [h6 (by omega)] at hx0
          exact absurd hx0.1 (by simp)
        have := t5 hkn
        intro hc
        apply this
        rw [hx0.2, ← hc]; simp
      · intro rel
        rw [runPages_cons, hL.sum]
        rw [show H * N - index = (q - index) + (k + (H * N - (q + k))) by omega, cnt_add, cnt_add,
          show index + (q - index) = q by omega]
        rw [cnt_false (f := freeOn N r rel) (a := index) (n := q - index) (by
          intro p p1 p2; unfold freeOn; rw [h4 p p1 (by omega)]; rfl)]
        have hin : ∀ p, q ≤ p → p < q + k → freeOn N r rel p = (r.backed (q / N) != rel) := by
          intro p p1 p2
          unfold freeOn; rw [h5 p p1 (by omega), t3 p p1 p2]; rfl
        by_cases hr : (!r.backed (q / N)) = rel
        · rw [cnt_true (f := freeOn N r rel) (a := q) (n := k) (fun p p1 p2 => by
            rw [hin p p1 p2, ← hr]; cases r.backed (q / N) <;> rfl)]
          rw [if_pos hr]; simp only []; omega
        · rw [cnt_false (f := freeOn N r rel) (a := q) (n := k) (fun p p1 p2 => by
            rw [hin p p1 p2]; cases hb : r.backed (q / N) <;> cases rel <;> simp [hb] at hr ⊢)]
          rw [if_neg hr]; omega
    · rw [e]
      refine ⟨[], rfl, by simp, ?_, List.Pairwise.nil, List.Pairwise.nil, ?_⟩
      · intro p p1 p2 p3
        rw [h1 p p1 p2] at p3; exact absurd p3 (by simp)
      · intro rel
        rw [cnt_false (f := freeOn N r rel)]
        · rfl
        · intro p p1 p2; unfold freeOn; rw [h1 p p1 (by omega)]; rfl

theorem cnt_block (hN : 0 < N) (g : Nat → Bool) (h : Nat) : cnt (fun p => g (p / N)) 0 (h * N) = cnt g 0 h * N := by
  induction h with
  | zero => simp [cnt]
  | succ h ih =>
    rw [Nat.succ_mul, cnt_add, ih, cnt_add, cnt_one, Nat.zero_add, Nat.zero_add]
    have hin : ∀ p, h * N ≤ p → p < h * N + N → g (p / N) = g h := fun p p1 p2 => by rw [block_div hN p1 p2]
    cases hg : g h with
    | true =>
      rw [cnt_true (a := h * N) (n := N) (fun p p1 p2 => by rw [hin p p1 p2]; exact hg), Nat.add_mul]; simp
    | false =>
      rw [cnt_false (a := h * N) (n := N) (fun p p1 p2 => by rw [hin p p1 p2]; exact hg)]; simp

theorem cnt_not (f : Nat → Bool) (a n : Nat) : cnt (fun k => !f k) a n + cnt f a n = n := by
  unfold cnt
  have := List.length_eq_countP_add_countP f (l := List.range' a n)
  rw [List.length_range'] at this
  have e : List.countP (fun k => !f k) (List.range' a n) = List.countP (fun a => decide ¬f a = true) (List.range' a n) := by
    apply List.countP_congr; intro x _; simp
  rw [e]; omega

theorem cnt_split (f g : Nat → Bool) (a n : Nat) : cnt (fun k => f k && g k) a n + cnt (fun k => f k && !g k) a n = cnt f a n := by
  induction n generalizing a with
  | zero => rfl
  | succ n ih =>
    rw [show n + 1 = 1 + n by omega, cnt_add, cnt_add, cnt_add f, cnt_one, cnt_one, cnt_one]
    have := ih (a + 1)
    cases f a <;> cases g a <;> simp <;> omega

/-- Pages on hugepages that are not backed are free, so the totals follow. -/
theorem totals (hN : 0 < N) {r : R} {L : List (Nat × Nat)} (k : K H N r L) :
    cnt (freeOn N r true) 0 (H * N) = (H - cnt r.backed 0 H) * N ∧
    cnt (freeOn N r false) 0 (H * N) + cnt (freeOn N r true) 0 (H * N) + r.trk.nused = H * N := by
  constructor
  · have h1 : cnt (freeOn N r true) 0 (H * N) = cnt (fun p => (fun i => !r.backed i) (p / N)) 0 (H * N) := by
      apply cnt_congr
      intro p _ hp
      have hpH := index_lt (H := H) (N := N) (q := p) (n := 1) (by omega) (by omega)
      unfold freeOn
      cases hb : r.backed (p / N) with
      | true => simp [hb]
      | false =>
        have h0 : r.used (p / N) = 0 := by
          rcases Nat.eq_zero_or_pos (r.used (p / N)) with h | h
          · exact h
          · rw [k.u.bk _ hpH h] at hb; exact absurd hb (by simp)
        rw [hp_free hN k.u hpH h0 rfl]; simp [hb]
    rw [h1, cnt_block hN (fun i => !r.backed i)]
    have := cnt_not r.backed 0 H
    rw [show cnt (fun i => !r.backed i) 0 H = H - cnt r.backed 0 H by omega]
  · have h1 := cnt_split (fun p => !bitAt r.trk.bits p) (fun p => r.backed (p / N)) 0 (H * N)
    have h2 := cnt_not (bitAt r.trk.bits) 0 (H * N)
    have h3 : r.trk.nused = cnt (bitAt r.trk.bits) 0 (H * N) := by rw [k.good.exact.used, cnt_range]
    have e1 : cnt (freeOn N r true) 0 (H * N) = cnt (fun p => !bitAt r.trk.bits p && !r.backed (p / N)) 0 (H * N) := by
      apply cnt_congr; intro p _ _; unfold freeOn; simp
    have e2 : cnt (freeOn N r false) 0 (H * N) = cnt (fun p => !bitAt r.trk.bits p && r.backed (p / N)) 0 (H * N) := by
      apply cnt_congr; intro p _ _; unfold freeOn; simp
    omega

/-- The statistics of a region: no underflow, and the checks at the end of `AddSpanStats` hold. -/
theorem stats_spec (hN : 0 < N) {r : R} {L : List (Nat × Nat)} (k : K H N r L) :
    r.unmappedPages H N = some (cnt (freeOn N r true) 0 (H * N)) ∧
    r.freePages H N = some (cnt (freeOn N r false) 0 (H * N)) ∧
    ∃ runs, addSpanStats H N r = some runs ∧ Runs H N r 0 runs := by
  obtain ⟨t1, t2⟩ := totals hN k
  have hle := cnt_le r.backed 0 H
  have hu : r.unmappedPages H N = some (cnt (freeOn N r true) 0 (H * N)) := by
    unfold R.unmappedPages
    rw [k.u.nb, show subCount H (cnt r.backed 0 H) = some (H - cnt r.backed 0 H) by
      unfold subCount; rw [if_pos hle], t1]
    rfl
  have hf : r.freePages H N = some (cnt (freeOn N r false) 0 (H * N)) := by
    unfold R.freePages
    rw [hu]
    show (subCount (H * N) (cnt (freeOn N r true) 0 (H * N))).bind (fun x => subCount x r.trk.nused) = _
    rw [show subCount (H * N) (cnt (freeOn N r true) 0 (H * N)) = some (H * N - cnt (freeOn N r true) 0 (H * N)) by
      unfold subCount; rw [if_pos (by omega)]]
    show subCount _ _ = _
    unfold subCount
    rw [if_pos (by omega)]
    congr 1; omega
  refine ⟨hu, hf, ?_⟩
  obtain ⟨runs, e, hr⟩ := spanRuns_spec hN k.good.exact.wf (H * N) 0 (by omega)
  refine ⟨runs, ?_, hr⟩
  unfold addSpanStats
  rw [e, hf, hu]
  show (if _ then _ else _) = _
  rw [if_pos]
  exact ⟨hr.sum false, hr.sum true⟩

end Verif.HugeRegion
