import Verif.Bitmap.Lemmas
/-! Helper lemmas: counting, popping and bitwise operators. -/
namespace Verif.Bitmap

/-- Number of `k` in `[a, a+n)` with `f k`. -/
def cnt (f : Nat → Bool) (a n : Nat) : Nat := (List.range' a n).countP f

theorem cnt_add (f : Nat → Bool) (a m n : Nat) : cnt f a (m + n) = cnt f a m + cnt f (a + m) n := by
  unfold cnt
  rw [← List.range'_append_1, List.countP_append]

theorem cnt_zero (f : Nat → Bool) (a : Nat) : cnt f a 0 = 0 := rfl

theorem cnt_one (f : Nat → Bool) (a : Nat) : cnt f a 1 = (f a).toNat := by
  unfold cnt
  simp only [List.range'_one, List.countP_cons, List.countP_nil]
  cases f a <;> rfl

theorem cnt_congr {f g : Nat → Bool} {a n : Nat} (h : ∀ k, a ≤ k → k < a + n → f k = g k) :
    cnt f a n = cnt g a n := by
  unfold cnt
  apply List.countP_congr
  intro x hx
  rw [List.mem_range'_1] at hx
  rw [h x hx.1 hx.2]

theorem cnt_shift (f : Nat → Bool) (a b n : Nat) :
    cnt (fun k => f (a + k)) b n = cnt f (a + b) n := by
  unfold cnt
  rw [← List.map_add_range', List.countP_map]
  rfl

theorem cnt_false {f : Nat → Bool} {a n : Nat} (h : ∀ k, a ≤ k → k < a + n → f k = false) :
    cnt f a n = 0 := by
  unfold cnt
  rw [List.countP_eq_zero]
  intro x hx
  rw [List.mem_range'_1] at hx
  rw [h x hx.1 hx.2]; simp

theorem cnt_true {f : Nat → Bool} {a n : Nat} (h : ∀ k, a ≤ k → k < a + n → f k = true) :
    cnt f a n = n := by
  unfold cnt
  have : (List.range' a n).countP f = (List.range' a n).length := by
    rw [List.countP_eq_length]
    intro x hx
    rw [List.mem_range'_1] at hx
    exact h x hx.1 hx.2
  simpa using this

theorem cnt_le (f : Nat → Bool) (a n : Nat) : cnt f a n ≤ n := by
  unfold cnt
  have := List.countP_le_length (p := f) (l := List.range' a n)
  simpa using this

/-- Changing exactly the bits of one range. -/
theorem cnt_setRange {f g : Nat → Bool} {N i n : Nat} (hb : i + n ≤ N)
    (hout : ∀ k, ¬(i ≤ k ∧ k < i + n) → g k = f k) :
    cnt g 0 N + cnt f i n = cnt f 0 N + cnt g i n := by
  have e : N = i + (n + (N - (i + n))) := by omega
  rw [e, cnt_add g, cnt_add f, Nat.zero_add, cnt_add g, cnt_add f]
  rw [cnt_congr (f := g) (g := f) (a := 0) (n := i) (fun k h1 h2 => hout k (by omega))]
  rw [cnt_congr (f := g) (g := f) (a := i + n) (fun k h1 h2 => hout k (by omega))]
  omega

theorem popcount_mask (w : Word) {frm to : Nat} (h1 : frm < to) (h2 : to ≤ 64) :
    popcount (w &&& rangeMask frm to) = cnt w.getLsbD frm (to - frm) := by
  have : popcount (w &&& rangeMask frm to) =
      cnt (fun k => w.getLsbD k && decide (frm ≤ k ∧ k < to)) 0 64 := by
    unfold popcount cnt
    rw [List.range_eq_range']
    apply List.countP_congr
    intro k hk
    rw [List.mem_range'_1] at hk
    rw [BitVec.getLsbD_and, getLsbD_rangeMask h1 h2 k (by omega)]
  rw [this]
  generalize hf : (fun k => w.getLsbD k && decide (frm ≤ k ∧ k < to)) = f
  have e : cnt f 0 64 = cnt f 0 (frm + ((to - frm) + (64 - to))) := by
    congr 1; omega
  rw [e, cnt_add, Nat.zero_add, cnt_add]
  subst hf
  rw [cnt_false (a := 0) (n := frm) (fun k _ hk => by simp; intro _; omega)]
  rw [cnt_false (a := frm + (to - frm)) (fun k hk _ => by simp; intro _; omega)]
  rw [Nat.zero_add, Nat.add_zero]
  exact cnt_congr (fun k hk1 hk2 => by simp; intro _; omega)

theorem countWordBits_spec {ws : List Word} {i frm to : Nat} (hi : i < ws.length) (h1 : frm < to)
    (h2 : to ≤ 64) : countWordBits ws i frm to = some (cnt (bitAt ws) (i * 64 + frm) (to - frm)) := by
  unfold countWordBits
  rw [if_pos ⟨h1, h2⟩, List.getElem?_eq_getElem hi]
  simp only [Option.some.injEq]
  rw [popcount_mask _ h1 h2, ← cnt_shift]
  exact cnt_congr (fun k hk1 hk2 => (bitAt_of_word (List.getElem?_eq_getElem hi) (by omega)).symm)

theorem countRest_spec {ws : List Word} : ∀ (n word c : Nat), word * 64 + 64 + n ≤ ws.length * 64 →
    countRest ws word n c = some (c + cnt (bitAt ws) (word * 64 + 64) n) := by
  intro n
  induction n using Nat.strongRecOn with
  | ind n ih =>
    intro word c hn
    rw [countRest]
    by_cases h0 : n > 0
    · rw [if_pos h0]
      have hk : (min n 64 = n ∧ n ≤ 64) ∨ (min n 64 = 64 ∧ 64 ≤ n) := by omega
      generalize min n 64 = k at hk
      rw [countWordBits_spec (by omega) (by omega) (by omega)]
      simp only
      have hlt : n - k < n := by omega
      have hle : (word + 1) * 64 + 64 + (n - k) ≤ ws.length * 64 ∨ n - k = 0 := by
        rcases hk with ⟨_, _⟩ | ⟨_, _⟩ <;> omega
      rcases hle with hle | hz
      · rw [ih (n - k) hlt (word + 1) _ hle, Nat.add_assoc]
        rw [show (word + 1) * 64 + 0 = word * 64 + 64 by omega, Nat.sub_zero]
        by_cases hz : n - k = 0
        · rw [hz, cnt_zero, show k = n by omega]; rfl
        · have hk64 : k = 64 := by omega
          subst hk64
          rw [show (word + 1) * 64 + 64 = word * 64 + 64 + 64 by omega]
          have e : n = 64 + (n - 64) := by omega
          conv => rhs; rw [e, cnt_add]
      · rw [hz, countRest, if_neg (by omega), show k = n by omega]
        rw [show (word + 1) * 64 + 0 = word * 64 + 64 by omega, Nat.sub_zero]
    · rw [if_neg h0, show n = 0 by omega]; rfl

/-- `CountBits(index, n)` counts the set bits of the range. -/
theorem countBits_spec {N : Nat} {ws : List Word} (h : WF N ws) {index n : Nat}
    (hb : index + n ≤ N) : countBits N ws index n = some (cnt (bitAt ws) index n) := by
  have hlen := h.len
  unfold kWords at hlen
  unfold countBits
  rw [if_pos hb]
  by_cases h0 : n = 0
  · rw [if_pos h0, h0]; rfl
  · rw [if_neg h0]
    have hk : (min (index % 64 + n) 64 = index % 64 + n ∧ index % 64 + n ≤ 64) ∨
      (min (index % 64 + n) 64 = 64 ∧ 64 ≤ index % 64 + n) := by omega
    generalize min (index % 64 + n) 64 = k at hk
    rw [countWordBits_spec (by omega) (by omega) (by omega)]
    simp only
    rw [show index / 64 * 64 + index % 64 = index by omega]
    rcases hk with ⟨hk1, hk2⟩ | ⟨hk1, hk2⟩
    · rw [show n - (k - index % 64) = 0 by omega, countRest, if_neg (by omega),
        show k - index % 64 = n by omega]
    · rw [countRest_spec _ _ _ (by omega)]
      have e : n = (k - index % 64) + (n - (k - index % 64)) := by omega
      conv => rhs; rw [e, cnt_add]
      rw [show index / 64 * 64 + 64 = index + (k - index % 64) by omega]

theorem getBit_spec {N : Nat} {ws : List Word} (h : WF N ws) {i : Nat} (hi : i < N) :
    getBit N ws i = some (bitAt ws i) := by
  unfold getBit bitAt
  obtain ⟨w, hw⟩ := h.word hi
  rw [if_pos hi, hw]
  simp only [and_one_shift_ne w (i % 64) (by omega)]

theorem setBit_spec {N : Nat} {ws : List Word} (h : WF N ws) {i : Nat} (hi : i < N) :
    ∃ ws', setBit N ws i = some (ws', bitAt ws i) ∧ WF N ws' ∧
      ∀ j, bitAt ws' j = if j = i then true else bitAt ws j := by
  obtain ⟨w, hw⟩ := h.word hi
  have hl := (List.getElem?_eq_some_iff.1 hw).1
  have hb : bitAt ws i = w.getLsbD (i % 64) := by unfold bitAt; rw [hw]
  have hbits : ∀ j, bitAt (ws.set (i / 64) (w ||| (1#64 <<< (i % 64)))) j =
      if j = i then true else bitAt ws j := by
    intro j
    rw [bitAt_set hl]
    by_cases hj : j / 64 = i / 64
    · rw [if_pos hj, BitVec.getLsbD_or, getLsbD_one_shift _ _ (by omega)]
      have : bitAt ws j = w.getLsbD (j % 64) := by unfold bitAt; rw [hj, hw]
      rw [this]
      by_cases hji : j = i
      · subst hji; simp
      · rw [if_neg hji]; simp; omega
    · rw [if_neg hj, if_neg (by intro h; subst h; exact hj rfl)]
  refine ⟨_, ?_, ⟨by simp [h.len], ?_⟩, hbits⟩
  · unfold setBit
    rw [if_pos hi, hw, hb]
    simp only [and_one_shift_ne w (i % 64) (by omega)]
  · intro j hj
    rw [hbits, if_neg (by omega)]; exact h.dead j hj

theorem clearBit_spec {N : Nat} {ws : List Word} (h : WF N ws) {i : Nat} (hi : i < N) :
    ∃ ws', clearBit N ws i = some (ws', bitAt ws i) ∧ WF N ws' ∧
      ∀ j, bitAt ws' j = if j = i then false else bitAt ws j := by
  obtain ⟨w, hw⟩ := h.word hi
  have hl := (List.getElem?_eq_some_iff.1 hw).1
  have hb : bitAt ws i = w.getLsbD (i % 64) := by unfold bitAt; rw [hw]
  have hbits : ∀ j, bitAt (ws.set (i / 64) (w &&& ~~~(1#64 <<< (i % 64)))) j =
      if j = i then false else bitAt ws j := by
    intro j
    rw [bitAt_set hl]
    by_cases hj : j / 64 = i / 64
    · rw [if_pos hj, BitVec.getLsbD_and, BitVec.getLsbD_not, getLsbD_one_shift _ _ (by omega)]
      have : bitAt ws j = w.getLsbD (j % 64) := by unfold bitAt; rw [hj, hw]
      rw [this]
      by_cases hji : j = i
      · subst hji; simp
      · rw [if_neg hji]; simp; omega
    · rw [if_neg hj, if_neg (by intro h; subst h; exact hj rfl)]
  refine ⟨_, ?_, ⟨by simp [h.len], ?_⟩, hbits⟩
  · unfold clearBit
    rw [if_pos hi, hw, hb]
    simp only [and_one_shift_ne w (i % 64) (by omega)]
  · intro j hj
    rw [hbits, if_neg (by omega)]; exact h.dead j hj

theorem word_eq_zero_iff (w : Word) : w = 0#64 ↔ ∀ k, k < 64 → w.getLsbD k = false := by
  constructor
  · rintro rfl k _; simp
  · intro h
    apply BitVec.eq_of_getLsbD_eq
    intro k hk
    rw [h k hk]; simp

theorem isZero_spec {N : Nat} {ws : List Word} (h : WF N ws) :
    isZero ws = true ↔ ∀ j, j < N → bitAt ws j = false := by
  unfold isZero
  rw [List.all_eq_true]
  constructor
  · intro ha j hj
    unfold bitAt
    obtain ⟨w, hw⟩ := h.word hj
    rw [hw]
    have := ha w (List.mem_of_getElem? hw)
    simp at this
    rw [this]; simp
  · intro ha w hw
    obtain ⟨i, hi⟩ := List.getElem?_of_mem hw
    rw [beq_iff_eq, word_eq_zero_iff]
    intro k hk
    rw [← bitAt_of_word hi hk]
    by_cases hlt : i * 64 + k < N
    · exact ha _ hlt
    · exact h.dead _ (by omega)

/-- `x & (x - 1)` clears the lowest set bit. -/
theorem clear_lowest (w : Word) (h : w ≠ 0#64) (k : Nat) :
    (w &&& (w - 1#64)).getLsbD k = (w.getLsbD k && decide (k ≠ ctz w)) := by
  obtain ⟨t1, t2, t3⟩ := ctz_spec h
  generalize ctz w = t at *
  -- w = 2^(t+1) * q + 2^t as a natural number
  have hw : w.toNat = 2 ^ (t + 1) * (w.toNat / 2 ^ (t + 1)) + 2 ^ t := by
    have hlow : w.toNat % 2 ^ (t + 1) = 2 ^ t := by
      apply Nat.eq_of_testBit_eq
      intro i
      rw [Nat.testBit_mod_two_pow, Nat.testBit_two_pow]
      by_cases hi : i < t
      · have := t3 i hi
        rw [BitVec.getLsbD] at this
        simp [this]; omega
      · by_cases hit : i = t
        · subst hit; rw [BitVec.getLsbD] at t2; simp [t2]
        · have h1 : ¬ i < t + 1 := by omega
          have h2 : ¬ t = i := by omega
          simp [h1, h2]
    have := Nat.div_add_mod w.toNat (2 ^ (t + 1))
    omega
  have hpos : 0 < 2 ^ t := Nat.pow_pos (by omega)
  have hlt := w.isLt
  have hsub : (w - 1#64).toNat = 2 ^ (t + 1) * (w.toNat / 2 ^ (t + 1)) + (2 ^ t - 1) := by
    rw [BitVec.toNat_sub]
    simp only [BitVec.toNat_ofNat]
    omega
  have hp1 : 2 ^ t < 2 ^ (t + 1) := Nat.pow_lt_pow_right (by omega) (by omega)
  rw [BitVec.getLsbD_and]
  have e2 : (w - 1#64).getLsbD k = if k < t + 1 then (2 ^ t - 1).testBit k
      else (w.toNat / 2 ^ (t + 1)).testBit (k - (t + 1)) := by
    rw [BitVec.getLsbD, hsub, Nat.testBit_two_pow_mul_add _ (by omega)]
  have e1 : w.getLsbD k = if k < t + 1 then (2 ^ t).testBit k
      else (w.toNat / 2 ^ (t + 1)).testBit (k - (t + 1)) := by
    rw [BitVec.getLsbD]
    conv => lhs; rw [hw, Nat.testBit_two_pow_mul_add _ (by omega)]
  rw [e2, e1]
  by_cases hkt : k < t + 1
  · rw [if_pos hkt, if_pos hkt, Nat.testBit_two_pow, Nat.testBit_two_pow_sub_one]
    by_cases hkt' : k = t
    · subst hkt'; simp
    · have h1 : ¬ t = k := by omega
      simp [h1]
  · rw [if_neg hkt, if_neg hkt]
    have : k ≠ t := by omega
    simp [this]

/-- `ClearLowestBit` clears the first set bit and nothing else. -/
theorem clearLowestBit_spec : ∀ (ws : List Word) (f : Nat),
    (∀ j, j < f → bitAt ws j = false) → bitAt ws f = true →
    (clearLowestBit ws).length = ws.length ∧
    ∀ j, bitAt (clearLowestBit ws) j = if j = f then false else bitAt ws j := by
  intro ws
  induction ws with
  | nil => intro f _ h; simp [bitAt] at h
  | cons w ws ih =>
    intro f hf hset
    have hb0 : ∀ k, k < 64 → bitAt (w :: ws) k = w.getLsbD k := by
      intro k hk; unfold bitAt; rw [show k / 64 = 0 by omega, show k % 64 = k by omega]; rfl
    have hb1 : ∀ k, bitAt (w :: ws) (64 + k) = bitAt ws k := by
      intro k; unfold bitAt
      rw [show (64 + k) / 64 = k / 64 + 1 by omega, show (64 + k) % 64 = k % 64 by omega]
      rfl
    unfold clearLowestBit
    by_cases hw : w ≠ 0#64
    · rw [if_pos hw]
      obtain ⟨t1, t2, t3⟩ := ctz_spec hw
      have hft : f = ctz w := by
        rcases Nat.lt_trichotomy f (ctz w) with h | h | h
        · have := t3 f h
          rw [← hb0 f (by omega), hset] at this; simp at this
        · exact h
        · have := hf (ctz w) h
          rw [hb0 _ t1, t2] at this; simp at this
      refine ⟨by simp, ?_⟩
      intro j
      by_cases hj : j < 64
      · have : bitAt ((w &&& (w - 1#64)) :: ws) j = (w &&& (w - 1#64)).getLsbD j := by
          unfold bitAt; rw [show j / 64 = 0 by omega, show j % 64 = j by omega]; rfl
        rw [this, clear_lowest w hw j, hb0 j hj, hft]
        by_cases hjf : j = ctz w <;> simp [hjf]
      · obtain ⟨k, rfl⟩ : ∃ k, j = 64 + k := ⟨j - 64, by omega⟩
        rw [if_neg (by omega)]
        unfold bitAt
        rw [show (64 + k) / 64 = k / 64 + 1 by omega]
        rfl
    · rw [if_neg hw]
      have hw0 : w = 0#64 := by simpa using hw
      have hf64 : 64 ≤ f := by
        apply Classical.byContradiction
        intro hn
        rw [hb0 f (by omega), hw0] at hset
        simp at hset
      obtain ⟨g, rfl⟩ : ∃ g, f = 64 + g := ⟨f - 64, by omega⟩
      obtain ⟨i1, i2⟩ := ih g (fun j hj => by rw [← hb1]; exact hf _ (by omega)) (by rw [← hb1]; exact hset)
      refine ⟨by simp [i1], ?_⟩
      intro j
      by_cases hj : j < 64
      · rw [if_neg (by omega), hb0 j hj]
        unfold bitAt; rw [show j / 64 = 0 by omega, show j % 64 = j by omega]; rfl
      · obtain ⟨k, rfl⟩ : ∃ k, j = 64 + k := ⟨j - 64, by omega⟩
        have : bitAt (w :: clearLowestBit ws) (64 + k) = bitAt (clearLowestBit ws) k := by
          unfold bitAt
          rw [show (64 + k) / 64 = k / 64 + 1 by omega, show (64 + k) % 64 = k % 64 by omega]
          rfl
        rw [this, i2, hb1]
        by_cases hkg : k = g
        · subst hkg; simp
        · rw [if_neg hkg, if_neg (by omega)]

theorem band_bit (a b : List Word) (j : Nat) :
    bitAt (band a b) j = (bitAt a j && bitAt b j) := by
  unfold bitAt band
  rw [List.getElem?_zipWith]
  cases ha : a[j / 64]? with
  | none => simp
  | some x => cases hb : b[j / 64]? with
    | none => simp
    | some y => simp

theorem bor_bit (a b : List Word) (hl : a.length = b.length) (j : Nat) :
    bitAt (bor a b) j = (bitAt a j || bitAt b j) := by
  unfold bitAt bor
  rw [List.getElem?_zipWith]
  cases ha : a[j / 64]? with
  | none =>
    have : b[j / 64]? = none := by simp at ha ⊢; omega
    simp [this]
  | some x => cases hb : b[j / 64]? with
    | none =>
      have := (List.getElem?_eq_some_iff.1 ha).1
      simp at hb
      omega
    | some y => simp

theorem bxor_bit (a b : List Word) (hl : a.length = b.length) (j : Nat) :
    bitAt (bxor a b) j = (bitAt a j ^^ bitAt b j) := by
  unfold bitAt bxor
  rw [List.getElem?_zipWith]
  cases ha : a[j / 64]? with
  | none =>
    have : b[j / 64]? = none := by simp at ha ⊢; omega
    simp [this]
  | some x => cases hb : b[j / 64]? with
    | none =>
      have := (List.getElem?_eq_some_iff.1 ha).1
      simp at hb
      omega
    | some y => simp

end Verif.Bitmap
