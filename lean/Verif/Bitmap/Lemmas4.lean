import Verif.Bitmap.Lemmas3
/-! Helper lemmas: Scale. -/
namespace Verif.Bitmap

theorem cnt_eq_len_iff {f : Nat → Bool} {a n : Nat} :
    n ≤ cnt f a n ↔ ∀ k, a ≤ k → k < a + n → f k = true := by
  constructor
  · intro h k hk1 hk2
    have hle := cnt_le f a n
    unfold cnt at h hle
    have : (List.range' a n).countP f = (List.range' a n).length := by simp; omega
    rw [List.countP_eq_length] at this
    exact this k (by rw [List.mem_range'_1]; exact ⟨hk1, hk2⟩)
  · intro h; rw [cnt_true h]; exact Nat.le_refl _

theorem cnt_pos_iff {f : Nat → Bool} {a n : Nat} :
    1 ≤ cnt f a n ↔ ∃ k, a ≤ k ∧ k < a + n ∧ f k = true := by
  unfold cnt
  rw [show (1 ≤ (List.range' a n).countP f) = (0 < (List.range' a n).countP f) from rfl,
    List.countP_pos_iff]
  constructor
  · rintro ⟨k, hk, h⟩; rw [List.mem_range'_1] at hk; exact ⟨k, hk.1, hk.2, h⟩
  · rintro ⟨k, h1, h2, h⟩; exact ⟨k, by rw [List.mem_range'_1]; exact ⟨h1, h2⟩, h⟩

theorem scaleLoop_spec {N M : Nat} {src : List Word} (h : WF N src) (p q k req : Nat)
    (hp : 0 < p) (hq : 0 < q) (hs : p * k ≤ N) (hM : q * k = M) :
    ∀ (m i : Nat) (res : List Word), k - i ≤ m → i ≤ k → WF M res →
      (∀ d, d < M → (bitAt res d = true ↔ d < q * i ∧ req ≤ cnt (bitAt src) (p * (d / q)) p)) →
      ∃ res', scaleLoop N M src (p * k) p q req (p * i) (q * i) res = some res' ∧ WF M res' ∧
        ∀ d, d < M → (bitAt res' d = true ↔ req ≤ cnt (bitAt src) (p * (d / q)) p) := by
  intro m
  induction m with
  | zero =>
    intro i res hm hi hwf hres
    have hik : i = k := by omega
    subst hik
    rw [scaleLoop, dif_neg (by omega)]
    refine ⟨res, rfl, hwf, ?_⟩
    intro d hd
    rw [hres d hd]
    exact ⟨fun h => h.2, fun h => ⟨by omega, h⟩⟩
  | succ m ih =>
    intro i res hm hi hwf hres
    by_cases hik : i = k
    · exact ih i res (by omega) hi hwf hres
    have hlt : p * i + p ≤ p * k := by
      have : p * (i + 1) ≤ p * k := Nat.mul_le_mul_left _ (by omega)
      rw [Nat.mul_add] at this; omega
    have hltq : q * i + q ≤ q * k := by
      have : q * (i + 1) ≤ q * k := Nat.mul_le_mul_left _ (by omega)
      rw [Nat.mul_add] at this; omega
    rw [scaleLoop, dif_pos (by omega), countBits_spec h (by omega)]
    simp only
    have ei : p * i + p = p * (i + 1) := by rw [Nat.mul_add]; omega
    have eq' : q * i + q = q * (i + 1) := by rw [Nat.mul_add]; omega
    have hdiv : ∀ d, (q * i ≤ d ∧ d < q * i + q) → d / q = i := by
      intro d hd
      rw [Nat.div_eq_of_lt_le] <;> rw [Nat.mul_comm] <;> omega
    by_cases hreq : cnt (bitAt src) (p * i) p ≥ req
    · rw [if_pos hreq]
      obtain ⟨res1, r1, r2, r3⟩ := setRangeValue_spec true hwf (index := q * i) (n := q) hq
        (by omega)
      rw [r1]
      simp only
      rw [ei, eq']
      refine ih (i + 1) res1 (by omega) (by omega) r2 ?_
      intro d hd
      rw [r3, ← eq']
      by_cases hr : q * i ≤ d ∧ d < q * i + q
      · rw [if_pos hr, hdiv d hr]
        exact ⟨fun _ => ⟨hr.2, hreq⟩, fun _ => rfl⟩
      · rw [if_neg hr, hres d hd]
        constructor
        · exact fun h => ⟨by omega, h.2⟩
        · exact fun h => ⟨by omega, h.2⟩
    · rw [if_neg hreq, ei, eq']
      refine ih (i + 1) res (by omega) (by omega) hwf ?_
      intro d hd
      rw [hres d hd, ← eq']
      by_cases hr : q * i ≤ d ∧ d < q * i + q
      · rw [hdiv d hr]
        constructor
        · exact fun h => absurd h.2 hreq
        · exact fun h => absurd h.2 hreq
      · constructor
        · exact fun h => ⟨by omega, h.2⟩
        · exact fun h => ⟨by omega, h.2⟩

end Verif.Bitmap
