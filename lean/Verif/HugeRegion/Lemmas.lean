import Verif.HugeRegion.Spec
import Verif.RangeTracker.Props
import Verif.Bitmap.Lemmas4
/-! The per-hugepage counters of a region. -/
namespace Verif.HugeRegion
open Verif.Bitmap Verif.RangeTracker
open Verif.PageTracker (Call)

variable {H N : Nat}

theorem upd_same {β : Type} (f : Nat → β) (a : Nat) (b : β) : upd f a b a = b := by simp [upd]
theorem upd_ne {β : Type} (f : Nat → β) {a x : Nat} (b : β) (h : x ≠ a) : upd f a b x = f x := by simp [upd, h]

/-- Is hugepage `i` backed and empty? -/
def R.empty (r : R) (i : Nat) : Bool := r.backed i && r.used i == 0

/-- The counters are those of a set of pages `b`. -/
structure U (H N : Nat) (r : R) (b : Nat → Bool) : Prop where
  used : ∀ i, i < H → r.used i = cnt b (i * N) N
  bk : ∀ i, i < H → 0 < r.used i → r.backed i = true
  nb : r.nbacked = cnt r.backed 0 H
  fb : r.freeBacked = cnt r.empty 0 H

theorem cnt_upd {f g : Nat → Bool} {i : Nat} (hi : i < H) (h : ∀ k, k < H → k ≠ i → g k = f k) :
    cnt g 0 H + (f i).toNat = cnt f 0 H + (g i).toNat := by
  have h0 : H = i + (1 + (H - (i + 1))) := by omega
  rw [h0, cnt_add, cnt_add, cnt_add f, cnt_add f, cnt_one, cnt_one]
  rw [cnt_congr (f := g) (g := f) (a := 0) (n := i) (fun k _ h2 => h k (by omega) (by omega)),
    cnt_congr (f := g) (g := f) (a := 0 + i + 1) (fun k h1 h2 => h k (by omega) (by omega))]
  rw [show 0 + i = i by omega]
  omega

/-- Changing a range of bits changes the count of an interval that contains it accordingly. -/
theorem cnt_within {f g : Nat → Bool} {a m i n : Nat} (h1 : a ≤ i) (h2 : i + n ≤ a + m)
    (hout : ∀ k, ¬(i ≤ k ∧ k < i + n) → g k = f k) : cnt g a m + cnt f i n = cnt f a m + cnt g i n := by
  have e : m = (i - a) + (n + (a + m - (i + n))) := by omega
  rw [e, cnt_add, cnt_add, cnt_add f, cnt_add f]
  rw [cnt_congr (f := g) (g := f) (a := a) (fun k _ _ => hout k (by omega)),
    cnt_congr (f := g) (g := f) (a := a + (i - a) + n) (fun k _ _ => hout k (by omega))]
  rw [show a + (i - a) = i by omega]
  omega

theorem block (hN : 0 < N) (q : Nat) : q / N * N ≤ q ∧ q < q / N * N + N := by
  have h1 := Nat.div_add_mod q N
  have h2 := Nat.mod_lt q hN
  rw [Nat.mul_comm] at h1
  omega

theorem block_lt {i i' : Nat} (h : i < i') (N : Nat) : i * N + N ≤ i' * N := by
  have := Nat.mul_le_mul_right N (show i + 1 ≤ i' by omega)
  rw [Nat.succ_mul] at this
  exact this

theorem block_div (hN : 0 < N) {i j : Nat} (h1 : i * N ≤ j) (h2 : j < i * N + N) : j / N = i := by
  have hb := block hN j
  rcases Nat.lt_trichotomy (j / N) i with h | h | h
  · have := block_lt h N; omega
  · exact h
  · have := block_lt h N; omega

theorem touch_split (hN : 0 < N) {q n h : Nat} (h0 : 0 < h) (h1 : h ≤ n) (h2 : q + h ≤ q / N * N + N) (i : Nat) :
    Touch N q n i ↔ i = q / N ∨ Touch N (q + h) (n - h) i := by
  have hb := block hN q
  constructor
  · rintro ⟨j, a, b, c⟩
    by_cases hj : j < q + h
    · left; rw [← c]; exact block_div hN (by omega) (by omega)
    · right; exact ⟨j, by omega, by omega, c⟩
  · rintro (a | ⟨j, a, b, c⟩)
    · exact ⟨q, by omega, by omega, a.symm⟩
    · exact ⟨j, by omega, by omega, c⟩

theorem not_touch_zero (q i : Nat) : ¬ Touch N q 0 i := by rintro ⟨j, a, b, -⟩; omega

theorem here_le {q n : Nat} (hN : 0 < N) (hn : 0 < n) : 0 < min n ((q / N + 1) * N - q) ∧
    min n ((q / N + 1) * N - q) ≤ n ∧ q + min n ((q / N + 1) * N - q) ≤ q / N * N + N := by
  have hb := block hN q
  rw [Nat.succ_mul]
  omega

theorem index_lt {q n : Nat} (hn : 0 < n) (h : q + n ≤ H * N) : q / N < H := by
  apply Nat.div_lt_of_lt_mul
  rw [Nat.mul_comm]; omega

/-- One step of `Inc` on hugepage `i`. -/
theorem incOne_spec {r : R} {b b' : Nat → Bool} (u : U H N r b) {i here : Nat} (hi : i < H) (h0 : 0 < here)
    (hb : cnt b' (i * N) N = cnt b (i * N) N + here)
    (hout : ∀ k, k < H → k ≠ i → cnt b' (k * N) N = cnt b (k * N) N) :
    ∃ r' c, incOne H N r i here = some (r', c) ∧ U H N r' b' ∧ r'.loc = r.loc ∧ r'.trk = r.trk ∧
      r'.totalUnbacked = r.totalUnbacked ∧ (∀ k, r'.backed k = true ↔ r.backed k = true ∨ k = i) ∧
      (c = true ↔ r.backed i = false) ∧ r'.freeBacked ≤ r.freeBacked := by
  have hle := cnt_le b' (i * N) N
  have hui := u.used i hi
  unfold incOne
  rw [if_neg (by omega), if_pos (by omega)]
  simp only []
  have hused : ∀ k, k < H → upd r.used i (r.used i + here) k = cnt b' (k * N) N := by
    intro k hk
    by_cases e : k = i
    · subst e; rw [upd_same]; omega
    · rw [upd_ne _ _ e, hout k hk e]; exact u.used k hk
  by_cases hz : r.used i = 0
  · rw [if_pos hz]
    cases hbk : r.backed i with
    | true =>
      rw [if_pos rfl]
      have h1 := cnt_upd (f := r.empty) (g := fun k => r.backed k && upd r.used i (r.used i + here) k == 0) hi
        (by intro k _ hk; simp only [R.empty, upd_ne _ _ hk])
      simp only [R.empty, hbk, hz, upd_same, Nat.zero_add, show (here == 0) = false from by simp; omega] at h1
      have h2 : (true && (0:Nat) == 0).toNat = 1 := rfl
      have h3 : (true && false).toNat = 0 := rfl
      rw [h2, h3] at h1
      have hfb := u.fb
      have : cnt r.empty 0 H = cnt (fun i => r.backed i && r.used i == 0) 0 H := rfl
      rw [show subCount r.freeBacked 1 = some (r.freeBacked - 1) by unfold subCount; rw [if_pos (by omega)]]
      refine ⟨_, _, rfl, ⟨hused, ?_, u.nb, ?_⟩, rfl, rfl, rfl, ?_, by simp, by simp⟩
      · intro k hk hp
        by_cases e : k = i
        · subst e; exact hbk
        · simp only [upd_ne _ _ e] at hp; exact u.bk k hk hp
      · show r.freeBacked - 1 = cnt (fun k => r.backed k && upd r.used i (r.used i + here) k == 0) 0 H
        rw [hz] ; simp only [Nat.zero_add]; omega
      · intro k
        show r.backed k = true ↔ _
        constructor
        · exact Or.inl
        · rintro (h | h)
          · exact h
          · rw [h]; exact hbk
    | false =>
      rw [if_neg (by simp)]
      have h1 := cnt_upd (f := r.empty) (g := fun k => upd r.backed i true k && upd r.used i (r.used i + here) k == 0) hi
        (by intro k _ hk; simp only [R.empty, upd_ne _ _ hk])
      simp only [R.empty, hbk, upd_same] at h1
      have h3 : (true && (r.used i + here == 0)).toNat = 0 := by
        rw [show (r.used i + here == 0) = false by simp; omega]; rfl
      rw [h3] at h1
      have h4 := cnt_upd (f := r.backed) (g := upd r.backed i true) hi (by intro k _ hk; rw [upd_ne _ _ hk])
      rw [hbk, upd_same] at h4
      have h5 : (false && (r.used i == 0)).toNat = 0 := rfl
      have h6 : true.toNat = 1 := rfl
      have h7 : false.toNat = 0 := rfl
      rw [h6, h7] at h4
      rw [h5] at h1
      refine ⟨_, _, rfl, ⟨hused, ?_, ?_, ?_⟩, rfl, rfl, rfl, ?_, by simp, by simp⟩
      · intro k hk hp
        show upd r.backed i true k = true
        by_cases e : k = i
        · subst e; rw [upd_same]
        · simp only [upd_ne _ _ e] at hp ⊢; exact u.bk k hk hp
      · show r.nbacked + 1 = cnt (upd r.backed i true) 0 H
        rw [u.nb]; omega
      · show r.freeBacked = cnt (fun k => upd r.backed i true k && upd r.used i (r.used i + here) k == 0) 0 H
        rw [u.fb]
        have : cnt r.empty 0 H = cnt (fun i => r.backed i && r.used i == 0) 0 H := rfl
        omega
      · intro k
        show upd r.backed i true k = true ↔ _
        by_cases e : k = i
        · subst e; simp [upd_same]
        · simp [upd_ne _ _ e, e]
  · rw [if_neg hz]
    have hbk := u.bk i hi (by omega)
    refine ⟨_, _, rfl, ⟨hused, ?_, u.nb, ?_⟩, rfl, rfl, rfl, ?_, by simp [hbk], Nat.le_refl _⟩
    · intro k hk hp
      by_cases e : k = i
      · subst e; exact hbk
      · simp only [upd_ne _ _ e] at hp; exact u.bk k hk hp
    · show r.freeBacked = cnt (fun k => r.backed k && upd r.used i (r.used i + here) k == 0) 0 H
      rw [u.fb]
      apply cnt_congr
      intro k _ hk
      by_cases e : k = i
      · subst e
        simp only [R.empty, upd_same]
        rw [show (r.used k == 0) = false by simp; omega, show (r.used k + here == 0) = false by simp; omega]
      · simp only [R.empty, upd_ne _ _ e]
    · intro k
      show r.backed k = true ↔ _
      constructor
      · exact Or.inl
      · rintro (h | h)
        · exact h
        · rw [h]; exact hbk

theorem setR_cnt (hN : 0 < N) {b : Nat → Bool} (v : Bool) {q h : Nat} (h2 : q + h ≤ q / N * N + N) :
    cnt (fun j => if q ≤ j ∧ j < q + h then v else b j) (q / N * N) N + cnt b q h =
      cnt b (q / N * N) N + (if v then h else 0) ∧
    ∀ k, k ≠ q / N → cnt (fun j => if q ≤ j ∧ j < q + h then v else b j) (k * N) N = cnt b (k * N) N := by
  have hb := block hN q
  constructor
  · rw [cnt_within (f := b) (i := q) (n := h) (by omega) (by omega) (fun k hk => by rw [if_neg hk])]
    cases v with
    | true => rw [cnt_true (a := q) (n := h) (fun k h1 h2 => by rw [if_pos ⟨h1, h2⟩]), if_pos rfl]
    | false => rw [cnt_false (a := q) (n := h) (fun k h1 h2 => by rw [if_pos ⟨h1, h2⟩]), if_neg (by simp)]
  · intro k hk
    apply cnt_congr
    intro j h3 h4
    rw [if_neg]
    intro hc
    apply hk
    have := block_div hN h3 h4
    rw [← this]
    exact block_div hN (by omega) (by omega)

/-- `Inc` counts the pages of the run in. -/
theorem inc_spec (hN : 0 < N) : ∀ (m n q : Nat) (r : R) (b : Nat → Bool) (back : Bool), n ≤ m → U H N r b →
    q + n ≤ H * N → (∀ j, q ≤ j → j < q + n → b j = false) →
    ∃ r' back', inc H N r q n back = some (r', back') ∧ U H N r' (fun j => if q ≤ j ∧ j < q + n then true else b j) ∧
      r'.loc = r.loc ∧ r'.trk = r.trk ∧ r'.totalUnbacked = r.totalUnbacked ∧
      (∀ i, r'.backed i = true ↔ r.backed i = true ∨ Touch N q n i) ∧
      (back' = true ↔ back = true ∨ ∃ i, Touch N q n i ∧ r.backed i = false) ∧ r'.freeBacked ≤ r.freeBacked := by
  intro m
  induction m with
  | zero =>
    intro n q r b back hm u hq hf
    have : n = 0 := by omega
    subst this
    unfold inc
    rw [if_pos rfl]
    refine ⟨r, back, rfl, ?_, rfl, rfl, rfl, ?_, ?_, Nat.le_refl _⟩
    · have : (fun j => if q ≤ j ∧ j < q + 0 then true else b j) = b := by
        funext j; rw [if_neg (by omega)]
      rw [this]; exact u
    · intro i; simp [not_touch_zero]
    · simp [not_touch_zero]
  | succ m ih =>
    intro n q r b back hm u hq hf
    by_cases hn : n = 0
    · subst hn; exact ih 0 q r b back (by omega) u hq hf
    have hh := here_le (N := N) (q := q) (n := n) hN (by omega)
    unfold inc
    rw [if_neg hn]
    simp only []
    revert hh
    generalize min n ((q / N + 1) * N - q) = h
    intro hh
    have hc := setR_cnt hN (b := b) true (q := q) (h := h) hh.2.2
    rw [cnt_false (f := b) (a := q) (n := h) (fun k h1 h2 => hf k h1 (by omega)), if_pos rfl] at hc
    obtain ⟨r1, c, e1, u1, f1, f2, f3, f4, f5, f6⟩ := incOne_spec u (i := q / N) (here := h) (index_lt (by omega) hq) hh.1
      (by rw [← hc.1]; rfl) (fun k _ hk => hc.2 k hk)
    rw [e1]
    simp only []
    rw [dif_pos ⟨hh.1, hh.2.1⟩]
    obtain ⟨r2, back2, e2, u2, g1, g2, g3, g4, g5, g6⟩ := ih (n - h) (q + h) r1 _ (back || c) (by omega) u1 (by omega)
      (by intro j h1 h2; rw [if_neg (by omega)]; exact hf j (by omega) (by omega))
    refine ⟨r2, back2, e2, ?_, by rw [g1, f1], by rw [g2, f2], by rw [g3, f3], ?_, ?_, by omega⟩
    · have : (fun j => if q ≤ j ∧ j < q + n then true else b j) =
        (fun j => if q + h ≤ j ∧ j < q + h + (n - h) then true else if q ≤ j ∧ j < q + h then true else b j) := by
        funext j
        by_cases a1 : q + h ≤ j ∧ j < q + h + (n - h)
        · rw [if_pos a1, if_pos (by omega)]
        · rw [if_neg a1]
          by_cases a2 : q ≤ j ∧ j < q + h
          · rw [if_pos a2, if_pos (by omega)]
          · rw [if_neg a2, if_neg (by omega)]
      rw [this]; exact u2
    · intro i
      rw [g4, f4, touch_split hN hh.1 hh.2.1 hh.2.2]
      exact ⟨fun x => by rcases x with (x | x) | x <;> simp [x], fun x => by rcases x with x | x | x <;> simp [x]⟩
    · rw [g5, Bool.or_eq_true, f5]
      constructor
      · rintro ((x | x) | ⟨i, x, y⟩)
        · exact Or.inl x
        · exact Or.inr ⟨q / N, (touch_split hN hh.1 hh.2.1 hh.2.2 _).2 (Or.inl rfl), x⟩
        · refine Or.inr ⟨i, (touch_split hN hh.1 hh.2.1 hh.2.2 _).2 (Or.inr x), ?_⟩
          cases hb : r.backed i with
          | false => rfl
          | true => rw [(f4 i).2 (Or.inl hb)] at y; exact y
      · rintro (x | ⟨i, x, y⟩)
        · exact Or.inl (Or.inl x)
        · rcases (touch_split hN hh.1 hh.2.1 hh.2.2 _).1 x with z | z
          · subst z; exact Or.inl (Or.inr y)
          · by_cases e : i = q / N
            · subst e; exact Or.inl (Or.inr y)
            · refine Or.inr ⟨i, z, ?_⟩
              cases hb : r1.backed i with
              | false => rfl
              | true =>
                rcases (f4 i).1 hb with w | w
                · rw [w] at y; exact absurd y (by simp)
                · exact absurd w e

/-- One step of `Dec` on hugepage `i`. -/
theorem decOne_spec {r : R} {b b' : Nat → Bool} (u : U H N r b) {i here : Nat} (hi : i < H) (h0 : 0 < here)
    (hb : cnt b' (i * N) N + here = cnt b (i * N) N)
    (hout : ∀ k, k < H → k ≠ i → cnt b' (k * N) N = cnt b (k * N) N) :
    ∃ r' c, decOne H r i here = some (r', c) ∧ U H N r' b' ∧ r'.loc = r.loc ∧ r'.trk = r.trk ∧
      r'.totalUnbacked = r.totalUnbacked ∧ r'.backed = r.backed ∧
      (c = true ↔ r'.used i = 0) ∧ r.freeBacked ≤ r'.freeBacked ∧ (∀ k, k ≠ i → r'.used k = r.used k) := by
  have hui := u.used i hi
  have hbk := u.bk i hi (by omega)
  unfold decOne
  rw [if_neg (by omega), if_pos ⟨h0, by omega, hbk⟩]
  simp only []
  have hused : ∀ k, k < H → upd r.used i (r.used i - here) k = cnt b' (k * N) N := by
    intro k hk
    by_cases e : k = i
    · subst e; rw [upd_same]; omega
    · rw [upd_ne _ _ e, hout k hk e]; exact u.used k hk
  have hbk' : ∀ k, k < H → 0 < upd r.used i (r.used i - here) k → r.backed k = true := by
    intro k hk hp
    by_cases e : k = i
    · subst e; exact hbk
    · rw [upd_ne _ _ e] at hp; exact u.bk k hk hp
  have hnot : ∀ k, k ≠ i → upd r.used i (r.used i - here) k = r.used k := fun k hk => upd_ne _ _ hk
  by_cases hz : r.used i - here = 0
  · rw [if_pos hz]
    refine ⟨_, _, rfl, ⟨hused, hbk', u.nb, ?_⟩, rfl, rfl, rfl, rfl, ?_, by simp, hnot⟩
    · show r.freeBacked + 1 = cnt (fun k => r.backed k && upd r.used i (r.used i - here) k == 0) 0 H
      have h1 := cnt_upd (f := r.empty) (g := fun k => r.backed k && upd r.used i (r.used i - here) k == 0) hi
        (by intro k _ hk; simp only [R.empty, upd_ne _ _ hk])
      simp only [upd_same, hz] at h1
      rw [u.fb]
      have h2 : r.empty i = false := by simp only [R.empty, hbk]; simp; omega
      rw [h2, hbk] at h1
      have h3 : (true && (0:Nat) == 0).toNat = 1 := rfl
      have h4 : false.toNat = 0 := rfl
      rw [h3, h4] at h1
      rw [hz]
      omega
    · simp [upd_same, hz]
  · rw [if_neg hz]
    refine ⟨_, _, rfl, ⟨hused, hbk', u.nb, ?_⟩, rfl, rfl, rfl, rfl, ?_, Nat.le_refl _, hnot⟩
    · show r.freeBacked = cnt (fun k => r.backed k && upd r.used i (r.used i - here) k == 0) 0 H
      rw [u.fb]
      apply cnt_congr
      intro k _ hk
      by_cases e : k = i
      · subst e
        simp only [R.empty, upd_same]
        rw [show (r.used k == 0) = false by simp; omega, show (r.used k - here == 0) = false by simp; omega]
      · simp only [R.empty, upd_ne _ _ e]
    · simp only [upd_same]
      constructor
      · intro h; exact absurd h (by simp)
      · intro h; exact absurd h hz

/-- `Dec` counts the pages of the run out and collects the hugepages that became empty. -/
theorem decLoop_spec (hN : 0 < N) : ∀ (m n q : Nat) (r : R) (b sh : Nat → Bool), n ≤ m → U H N r b →
    q + n ≤ H * N → (∀ j, q ≤ j → j < q + n → b j = true) →
    ∃ r' sh', decLoop H N r q n sh = some (r', sh') ∧ U H N r' (fun j => if q ≤ j ∧ j < q + n then false else b j) ∧
      r'.loc = r.loc ∧ r'.trk = r.trk ∧ r'.totalUnbacked = r.totalUnbacked ∧ r'.backed = r.backed ∧
      (∀ i, sh' i = true ↔ sh i = true ∨ (Touch N q n i ∧ r'.used i = 0)) ∧ r.freeBacked ≤ r'.freeBacked ∧
      (∀ k, ¬ Touch N q n k → r'.used k = r.used k) := by
  intro m
  induction m with
  | zero =>
    intro n q r b sh hm u hq hf
    have : n = 0 := by omega
    subst this
    unfold decLoop
    rw [if_pos rfl]
    refine ⟨r, sh, rfl, ?_, rfl, rfl, rfl, rfl, ?_, Nat.le_refl _, fun _ _ => rfl⟩
    · have : (fun j => if q ≤ j ∧ j < q + 0 then false else b j) = b := by
        funext j; rw [if_neg (by omega)]
      rw [this]; exact u
    · intro i; simp [not_touch_zero]
  | succ m ih =>
    intro n q r b sh hm u hq hf
    by_cases hn : n = 0
    · subst hn; exact ih 0 q r b sh (by omega) u hq hf
    have hh := here_le (N := N) (q := q) (n := n) hN (by omega)
    unfold decLoop
    rw [if_neg hn]
    simp only []
    revert hh
    generalize min n ((q / N + 1) * N - q) = h
    intro hh
    have hc := setR_cnt hN (b := b) false (q := q) (h := h) hh.2.2
    rw [cnt_true (f := b) (a := q) (n := h) (fun k h1 h2 => hf k h1 (by omega)), if_neg (by simp)] at hc
    have hi := index_lt (N := N) (H := H) (q := q) (n := n) (by omega) hq
    obtain ⟨r1, c, e1, u1, f1, f2, f3, f4, f5, f6, f7⟩ := decOne_spec u (i := q / N) (here := h) hi hh.1
      (by rw [hc.1]; rfl) (fun k _ hk => hc.2 k hk)
    rw [e1]
    simp only []
    rw [dif_pos ⟨hh.1, hh.2.1⟩]
    obtain ⟨r2, sh2, e2, u2, g1, g2, g3, g4, g5, g6, g7⟩ := ih (n - h) (q + h) r1 _ (if c then upd sh (q / N) true else sh)
      (by omega) u1 (by omega) (by intro j h1 h2; rw [if_neg (by omega)]; exact hf j (by omega) (by omega))
    have hsp := touch_split (N := N) hN hh.1 hh.2.1 hh.2.2
    refine ⟨r2, sh2, e2, ?_, by rw [g1, f1], by rw [g2, f2], by rw [g3, f3], by rw [g4, f4], ?_, by omega, ?_⟩
    · have : (fun j => if q ≤ j ∧ j < q + n then false else b j) =
        (fun j => if q + h ≤ j ∧ j < q + h + (n - h) then false else if q ≤ j ∧ j < q + h then false else b j) := by
        funext j
        by_cases a1 : q + h ≤ j ∧ j < q + h + (n - h)
        · rw [if_pos a1, if_pos (by omega)]
        · rw [if_neg a1]
          by_cases a2 : q ≤ j ∧ j < q + h
          · rw [if_pos a2, if_pos (by omega)]
          · rw [if_neg a2, if_neg (by omega)]
      rw [this]; exact u2
    · intro i
      rw [g5, hsp]
      have hsh : (if c then upd sh (q / N) true else sh) i = true ↔ sh i = true ∨ (i = q / N ∧ r1.used i = 0) := by
        cases c with
        | true =>
          rw [if_pos rfl]
          by_cases e : i = q / N
          · subst e; simp [upd_same, f5.1 rfl]
          · simp [upd_ne _ _ e, e]
        | false =>
          rw [if_neg (by simp)]
          constructor
          · exact Or.inl
          · rintro (x | ⟨x, y⟩)
            · exact x
            · rw [x] at y; exact absurd (f5.2 y) (by simp)
      rw [hsh]
      have hle : i < H → r2.used i ≤ r1.used i := by
        intro hiH
        rw [u1.used i hiH, u2.used i hiH]
        unfold cnt
        apply List.countP_mono_left
        intro x _ hx
        by_cases a1 : q + h ≤ x ∧ x < q + h + (n - h)
        · rw [if_pos a1] at hx; exact absurd hx (by simp)
        · rw [if_neg a1] at hx; exact hx
      constructor
      · rintro ((x | ⟨x, y⟩) | ⟨x, y⟩)
        · exact Or.inl x
        · refine Or.inr ⟨Or.inl x, ?_⟩
          have := hle (by rw [x]; exact hi); omega
        · exact Or.inr ⟨Or.inr x, y⟩
      · rintro (x | ⟨x | x, y⟩)
        · exact Or.inl (Or.inl x)
        · by_cases ht : Touch N (q + h) (n - h) i
          · exact Or.inr ⟨ht, y⟩
          · exact Or.inl (Or.inr ⟨x, by rw [← g7 i ht]; exact y⟩)
        · exact Or.inr ⟨x, y⟩
    · intro k hk
      have hk' : ¬ (k = q / N ∨ Touch N (q + h) (n - h) k) := fun x => hk ((hsp k).2 x)
      rw [g7 k (fun x => hk' (Or.inr x)), f7 k (fun x => hk' (Or.inl x))]

end Verif.HugeRegion
