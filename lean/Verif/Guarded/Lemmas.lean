import Verif.Guarded.Spec
import Verif.Util
/-! Arithmetic of slots and addresses. -/
namespace Verif.Guarded

theorem bitCeil_pow (n : Nat) : ∃ k, bitCeil n = 2 ^ k := by
  unfold bitCeil
  split
  · exact ⟨0, rfl⟩
  · exact ⟨_, rfl⟩

theorem pow_le_dvd {a b : Nat} (h : 2 ^ a ≤ 2 ^ b) : 2 ^ a ∣ 2 ^ b :=
  Nat.pow_dvd_pow 2 ((Nat.pow_le_pow_iff_right (by decide)).1 h)

theorem defAlign_pow (n : Nat) : ∃ k, min (bitCeil n) newAlign = 2 ^ k ∧ k ≤ 4 := by
  obtain ⟨k, hk⟩ := bitCeil_pow n
  rw [hk]
  by_cases h : k ≤ 4
  · refine ⟨k, ?_, h⟩
    have : 2 ^ k ≤ 2 ^ 4 := (Nat.pow_le_pow_iff_right (by decide)).2 h
    show min _ 16 = _
    omega
  · refine ⟨4, ?_, by omega⟩
    have : 2 ^ 4 ≤ 2 ^ k := (Nat.pow_le_pow_iff_right (by decide)).2 (by omega)
    show min _ 16 = _
    omega

variable {c : Cfg}

theorem Cfg.OK.ps_pos (h : c.OK) : 16 ≤ c.ps := by
  obtain ⟨k, hk, h4⟩ := h.ps
  have : 2 ^ 4 ≤ 2 ^ k := (Nat.pow_le_pow_iff_right (by decide)).2 h4
  omega

theorem Cfg.OK.total_pos (h : c.OK) : 0 < c.total := by
  have := h.limit; have := h.limit_total; omega

/-- The effective alignment is a power of two that divides the page size. -/
theorem effAlign_dvd (h : c.OK) {size al : Nat} (ha : al ≤ c.ps) (hp : al = 0 ∨ ∃ k, al = 2 ^ k) :
    0 < effAlign size al ∧ effAlign size al ∣ c.ps ∧ (al = 0 ∨ al ∣ effAlign size al) ∧
      min (bitCeil size) newAlign ∣ effAlign size al := by
  obtain ⟨d, hd, hd4⟩ := defAlign_pow size
  obtain ⟨k, hk, hk4⟩ := h.ps
  unfold effAlign
  rw [hd, hk]
  rw [hk] at ha
  rcases hp with rfl | ⟨j, rfl⟩
  · refine ⟨?_, ?_, Or.inl rfl, ?_⟩
    · have := Nat.pos_of_ne_zero (show (2:Nat) ^ d ≠ 0 by exact Nat.ne_of_gt (Nat.two_pow_pos d)); omega
    · rw [Nat.max_eq_right (Nat.zero_le _)]; exact Nat.pow_dvd_pow 2 (by omega)
    · rw [Nat.max_eq_right (Nat.zero_le _)]; exact Nat.dvd_refl _
  · have hj := Nat.two_pow_pos j
    have hdp := Nat.two_pow_pos d
    have hd2 : 2 ^ d ≤ 2 ^ k := (Nat.pow_le_pow_iff_right (by decide)).2 (by omega)
    by_cases hle : 2 ^ j ≤ 2 ^ d
    · rw [Nat.max_eq_right hle]
      exact ⟨hdp, pow_le_dvd hd2, Or.inr (pow_le_dvd hle), Nat.dvd_refl _⟩
    · rw [Nat.max_eq_left (by omega)]
      exact ⟨hj, pow_le_dvd ha, Or.inr (Nat.dvd_refl _), pow_le_dvd (by omega)⟩

theorem base_eq (h : c.OK) : c.base = c.ps * (c.base / c.ps) := by
  have := Nat.div_add_mod c.base c.ps
  have := h.base
  omega

theorem first_eq (h : c.OK) : c.first = c.base + c.ps := by
  unfold Cfg.first
  have h0 := h.ps_pos
  have hb := base_eq h
  rw [Nat.add_div_right _ (by omega), Nat.add_mul, Nat.mul_comm (c.base / c.ps)]
  omega

theorem div_of {p k f : Nat} (hf : f < p) : (p * k + f) / p = k ∧ (p * k + f) % p = f := by
  have hp : 0 < p := by omega
  constructor
  · rw [Nat.mul_add_div hp, Nat.div_eq_of_lt hf]; rfl
  · rw [Nat.mul_add_mod, Nat.mod_eq_of_lt hf]

theorem page_eq (h : c.OK) (s : Nat) : c.page s = c.ps * (c.base / c.ps + 2 * s + 1) := by
  unfold Cfg.page
  have hb := base_eq h
  rw [show c.base / c.ps + 2 * s + 1 = c.base / c.ps + (2 * s + 1) by omega, Nat.mul_add, ← hb, Nat.mul_comm]

/-- Pages of different slots are apart. -/
theorem page_apart {s t : Nat} (h : s < t) : c.page s + 2 * c.ps ≤ c.page t := by
  unfold Cfg.page
  have := Nat.mul_le_mul_right c.ps (show 2 * s + 1 + 2 ≤ 2 * t + 1 by omega)
  rw [Nat.add_mul (2 * s + 1)] at this
  omega

theorem slotAddr_eq (h : c.OK) {s : Nat} (hs : s < c.total) : c.slotAddr s = some (c.page s) := by
  unfold Cfg.slotAddr Cfg.page
  rw [if_pos hs, first_eq h, Nat.add_mul]
  congr 1
  omega

theorem addrSlot_page (h : c.OK) {s : Nat} (hs : s < c.total) : c.addrSlot (c.page s) = some s := by
  have h0 := h.ps_pos
  unfold Cfg.addrSlot
  have he : c.page s - c.first = c.ps * (2 * s) := by
    rw [first_eq h]; unfold Cfg.page; rw [Nat.add_mul, Nat.mul_comm c.ps]; omega
  have hle : c.first ≤ c.page s := by
    rw [first_eq h]; unfold Cfg.page; rw [Nat.add_mul]; omega
  rw [if_pos hle]
  dsimp only
  rw [he, Nat.mul_mod_right, Nat.mul_div_right _ (by omega)]
  rw [if_pos ⟨rfl, by omega, by omega⟩]
  congr 1
  omega

theorem pageAddr_on (h : c.OK) {s a : Nat} (ha : c.On s a) : c.pageAddr a = c.page s := by
  unfold Cfg.pageAddr
  have e : a = c.ps * (c.base / c.ps + 2 * s + 1) + (a - c.page s) := by
    rw [← page_eq h]; have := ha.1; omega
  have hd : a / c.ps = c.base / c.ps + 2 * s + 1 := by
    rw [e]
    exact (div_of (by have := ha.1; have := ha.2; omega)).1
  rw [hd, page_eq h, Nat.mul_comm]

theorem slot_on (h : c.OK) {s a : Nat} (hs : s < c.total) (ha : c.On s a) : c.addrSlot (c.pageAddr a) = some s := by
  rw [pageAddr_on h ha, addrSlot_page h hs]

/-- Conversely, the address lies on the page of the slot found. -/
theorem on_of_slot (h : c.OK) {s a : Nat} (hs : c.addrSlot (c.pageAddr a) = some s) : s < c.total ∧ c.On s a := by
  have h0 := h.ps_pos
  unfold Cfg.addrSlot at hs
  split at hs
  · rename_i hle
    dsimp only at hs
    split at hs
    · rename_i hc
      cases hs
      refine ⟨hc.2.2, ?_⟩
      have hfe := first_eq h
      have hbe := base_eq h
      unfold Cfg.pageAddr at *
      generalize hq : a / c.ps = q at *
      have ha := Nat.div_add_mod a c.ps
      rw [hq] at ha
      have hm := Nat.mod_lt a (show 0 < c.ps by omega)
      -- offset = (q - b - 1) * ps
      have hoff : q * c.ps - c.first = c.ps * (q - (c.base / c.ps + 1)) := by
        rw [hfe, Nat.mul_sub, Nat.mul_comm q, Nat.mul_add, Nat.mul_one, ← hbe]
      rw [hoff] at hc ⊢
      rw [Nat.mul_div_right _ (by omega)] at hc ⊢
      have hge : c.base / c.ps + 1 ≤ q := by
        rw [hfe, hbe] at hle
        have : c.ps * (c.base / c.ps + 1) ≤ c.ps * q := by
          rw [Nat.mul_add, Nat.mul_one, Nat.mul_comm c.ps q]; exact hle
        exact Nat.le_of_mul_le_mul_left this (by omega)
      have e : c.page ((q - (c.base / c.ps + 1)) / 2) = c.ps * q := by
        rw [page_eq h]; congr 1; omega
      unfold Cfg.On
      rw [e]
      omega
    · cases hs
  · cases hs

theorem mine_iff (h : c.OK) (a : Nat) : c.mine a = true ↔ c.base ≤ a ∧ a < c.base + (2 * c.total + 1) * c.ps := by
  unfold Cfg.mine
  rw [decide_eq_true_eq]
  exact Iff.rfl

theorem mine_on (h : c.OK) {s a : Nat} (hs : s < c.total) (ha : c.On s a) : c.mine a = true := by
  rw [mine_iff h]
  have h1 := ha.1
  have h2 := ha.2
  unfold Cfg.page at h1 h2
  have := Nat.mul_le_mul_right c.ps (show 2 * s + 1 + 1 ≤ 2 * c.total + 1 by omega)
  rw [Nat.add_mul (2 * s + 1)] at this
  omega

theorem page_succ (s : Nat) : c.page (s + 1) = c.page s + 2 * c.ps := by
  unfold Cfg.page
  rw [show 2 * (s + 1) + 1 = 2 * s + 1 + 2 by omega, Nat.add_mul (2 * s + 1)]
  omega

theorem slot_le {s t : Nat} (hp : 0 < c.ps) (h : c.page s ≤ c.page t) : s ≤ t := by
  rcases Nat.lt_or_ge t s with hlt | hge
  · have := page_apart (c := c) hlt; omega
  · exact hge

/-- The nearest slot. -/
theorem nearest_spec (h : c.OK) {a : Nat} (ha : c.mine a = true) :
    ∃ s, c.nearestSlot a = some s ∧ s < c.total ∧ ∀ t, t < c.total → c.dist a s ≤ c.dist a t := by
  have h0 := h.ps_pos
  have ht := h.total_pos
  have heven : c.ps = 2 * (c.ps / 2) := by
    obtain ⟨k, hk, hk4⟩ := h.ps
    have : c.ps = 2 * 2 ^ (k - 1) := by
      rw [hk, Nat.mul_comm, ← Nat.pow_succ]; congr 1; omega
    omega
  rw [mine_iff h] at ha
  have hfe := first_eq h
  have key : ∀ s, s < c.total → c.On s (c.nearestPage a) →
      (s + 1 = c.total ∨ a < c.page s + c.ps + c.ps / 2) → (s = 0 ∨ c.page s ≤ a + c.ps / 2) →
      ∃ s, c.nearestSlot a = some s ∧ s < c.total ∧ ∀ t, t < c.total → c.dist a s ≤ c.dist a t := by
    intro s hs hon hhi hlo
    refine ⟨s, by unfold Cfg.nearestSlot; exact slot_on h hs hon, hs, fun t htt => ?_⟩
    unfold Cfg.dist
    rcases Nat.lt_trichotomy s t with hlt | heq | hgt
    · have := page_apart (c := c) hlt
      rcases hhi with e | e
      · omega
      · omega
    · subst heq; omega
    · have := page_apart (c := c) hgt
      rcases hlo with e | e
      · omega
      · omega
  have hp0 : c.page 0 = c.first := by rw [hfe]; unfold Cfg.page; omega
  have hlast : c.first + 2 * (c.total - 1) * c.ps = c.page (c.total - 1) := by
    rw [hfe]; unfold Cfg.page; rw [Nat.add_mul (2 * (c.total - 1))]; omega
  by_cases h1 : a < c.first
  · have hn : c.nearestPage a = c.page 0 := by unfold Cfg.nearestPage; rw [if_pos h1, hp0]
    refine key 0 ht ?_ (Or.inr (by omega)) (Or.inl rfl)
    rw [hn]; unfold Cfg.On; omega
  by_cases h2 : a > c.page (c.total - 1)
  · have hn : c.nearestPage a = c.page (c.total - 1) := by
      unfold Cfg.nearestPage; rw [if_neg h1]; dsimp only; rw [hlast, if_pos h2]
    refine key (c.total - 1) (by omega) ?_ (Or.inl (by omega)) (Or.inr (by omega))
    rw [hn]; unfold Cfg.On; omega
  have hd := Nat.div_add_mod (a - c.first) c.ps
  have hm := Nat.mod_lt (a - c.first) (show 0 < c.ps by omega)
  generalize hq : (a - c.first) / c.ps = m at *
  generalize hf : (a - c.first) % c.ps = f at *
  have hpg : ∀ s, c.page s = c.first + c.ps * (2 * s) := by
    intro s; rw [hfe]; unfold Cfg.page; rw [Nat.add_mul, Nat.mul_comm (2 * s)]; omega
  by_cases h3 : m % 2 = 0
  · have hn : c.nearestPage a = a := by
      unfold Cfg.nearestPage; rw [if_neg h1]; dsimp only; rw [hlast, if_neg h2, hq, if_pos h3]
    have he := hpg (m / 2)
    rw [show 2 * (m / 2) = m by omega] at he
    have : m / 2 ≤ c.total - 1 := slot_le (c := c) (by omega) (by omega)
    refine key (m / 2) (by omega) ?_ (Or.inr (by omega)) (Or.inr (by omega))
    rw [hn]; unfold Cfg.On; omega
  · have he := hpg (m / 2)
    have hmm : c.ps * m = c.ps * (2 * (m / 2)) + c.ps := by
      rw [← Nat.mul_succ]; congr 1; omega
    have hsl : m / 2 < c.total - 1 := by
      rcases Nat.lt_or_ge (m / 2) (c.total - 1) with hlt | hge
      · exact hlt
      · rcases Nat.eq_or_lt_of_le hge with e | hlt
        · rw [e] at h2; omega
        · have := page_apart (c := c) hlt; omega
    have hs1 := page_succ (c := c) (m / 2)
    have hhalf : (a - c.first) / (c.ps / 2) = 2 * m + f / (c.ps / 2) := by
      have e : a - c.first = c.ps / 2 * (2 * m) + f := by
        rw [← hd, ← Nat.mul_assoc, Nat.mul_comm (c.ps / 2) 2, ← heven]
      rw [e, Nat.mul_add_div (by omega)]
    by_cases h4 : f < c.ps / 2
    · have h5 : (a - c.first) / (c.ps / 2) % 2 = 0 := by
        rw [hhalf, Nat.div_eq_of_lt h4]; omega
      have hn : c.nearestPage a = a - c.ps / 2 := by
        unfold Cfg.nearestPage; rw [if_neg h1]; dsimp only; rw [hlast, if_neg h2, hq, if_neg h3, if_pos h5]
      refine key (m / 2) (by omega) ?_ (Or.inr (by omega)) (Or.inr (by omega))
      rw [hn]; unfold Cfg.On; omega
    · have hf1 : f / (c.ps / 2) = 1 := by
        apply Nat.div_eq_of_lt_le <;> omega
      have h5 : ¬ (a - c.first) / (c.ps / 2) % 2 = 0 := by
        rw [hhalf, hf1]; omega
      have hn : c.nearestPage a = a + c.ps / 2 := by
        unfold Cfg.nearestPage; rw [if_neg h1]; dsimp only; rw [hlast, if_neg h2, hq, if_neg h3, if_neg h5]
      refine key (m / 2 + 1) (by omega) ?_ (Or.inr (by omega)) (Or.inr (by omega))
      rw [hn]; unfold Cfg.On; omega

/-! ### Placement -/

theorem rightAlign_spec (h : c.OK) {slot size al : Nat} (hs : slot < c.total) (hsz : size ≤ c.ps) (ha : al ≤ c.ps)
    (hp : al = 0 ∨ ∃ k, al = 2 ^ k) :
    let r := rightAlign c slot (c.page slot) size al
    (0 < size → Placed c ⟨r.1, slot, size, al⟩) ∧ (slot % 2 = 0 → r.1 + size + r.2 = c.page slot + c.ps) ∧
      (slot % 2 ≠ 0 → r.2 = 0) := by
  obtain ⟨e1, e2, e3, e4⟩ := effAlign_dvd (size := size) h ha hp
  have hpg : effAlign size al ∣ c.page slot := by
    rw [page_eq h]; exact Nat.dvd_trans e2 (Nat.dvd_mul_right _ _)
  intro r
  by_cases hr : slot % 2 = 0
  · have hra : r = (c.page slot + c.ps - size - (c.page slot + c.ps - size) % effAlign size al,
        (c.page slot + c.ps - size) % effAlign size al) := by
      show rightAlign c slot (c.page slot) size al = _
      unfold rightAlign rightAligned
      simp only [hr, decide_true, if_true]
    generalize hadj : c.page slot + c.ps - size = adj at hra
    have hge : c.page slot ≤ adj := by omega
    have hlt := Nat.mod_lt adj e1
    have hdm := Nat.div_add_mod adj (effAlign size al)
    have hlow : c.page slot ≤ adj - adj % effAlign size al := by
      obtain ⟨q, hq⟩ := hpg
      have : q ≤ adj / effAlign size al := by
        rw [Nat.le_div_iff_mul_le e1, Nat.mul_comm]; omega
      have := Nat.mul_le_mul_left (effAlign size al) this
      omega
    have hal : effAlign size al ∣ adj - adj % effAlign size al := Nat.dvd_sub_mod adj
    rw [hra]
    refine ⟨fun h0 => ⟨hs, ⟨ha, hp⟩, hlow, by show adj - _ + size ≤ c.page slot + c.ps; omega, ?_, ?_, ?_, ?_⟩, ?_, fun e => absurd hr e⟩
    · rcases e3 with e | e
      · exact Or.inl e
      · exact Or.inr (Nat.mod_eq_zero_of_dvd (Nat.dvd_trans e hal))
    · exact Nat.mod_eq_zero_of_dvd (Nat.dvd_trans e4 hal)
    · rintro (e | e)
      · dsimp only at e; omega
      · dsimp only at e; omega
    · intro _ _
      show c.page slot + c.ps - (adj - adj % effAlign size al + size) < _
      dsimp only
      omega
    · intro _
      have := Nat.mod_le adj (effAlign size al)
      show adj - _ + size + _ = _
      omega
  · have hra : r = (c.page slot, 0) := by
      show rightAlign c slot (c.page slot) size al = _
      unfold rightAlign rightAligned
      simp only [hr, decide_false, Bool.false_eq_true, if_false]
    rw [hra]
    refine ⟨fun h0 => ⟨hs, ⟨ha, hp⟩, Nat.le_refl _, by show c.page slot + size ≤ c.page slot + c.ps; omega, ?_, ?_, fun _ => rfl, fun e => absurd e hr⟩, fun e => absurd e hr,
      fun _ => rfl⟩
    · rcases e3 with e | e
      · exact Or.inl e
      · exact Or.inr (Nat.mod_eq_zero_of_dvd (Nat.dvd_trans e hpg))
    · exact Nat.mod_eq_zero_of_dvd (Nat.dvd_trans e4 hpg)

theorem zero_placed (h : c.OK) {slot al : Nat} (hs : slot < c.total) (ha : al ≤ c.ps)
    (hp : al = 0 ∨ ∃ k, al = 2 ^ k) : Placed c ⟨c.page slot, slot, 0, al⟩ := by
  obtain ⟨e1, e2, e3, e4⟩ := effAlign_dvd (size := 0) h ha hp
  have hpg : effAlign 0 al ∣ c.page slot := by
    rw [page_eq h]; exact Nat.dvd_trans e2 (Nat.dvd_mul_right _ _)
  refine ⟨hs, ⟨ha, hp⟩, Nat.le_refl _, by show c.page slot + 0 ≤ c.page slot + c.ps; omega, ?_, ?_, fun _ => rfl, fun _ e => absurd e (Nat.lt_irrefl _)⟩
  · rcases e3 with e | e
    · exact Or.inl e
    · exact Or.inr (Nat.mod_eq_zero_of_dvd (Nat.dvd_trans e hpg))
  · exact Nat.mod_eq_zero_of_dvd (Nat.dvd_trans e4 hpg)

/-- The address of an object is on its slot's page. -/
theorem Placed.on {o : Obj} (hp : Placed c o) (hlt : o.ptr < c.page o.slot + c.ps) : c.On o.slot o.ptr :=
  ⟨hp.lo, hlt⟩

theorem Placed.ptr_lt (h : c.OK) {o : Obj} (hp : Placed c o) : o.ptr < c.page o.slot + c.ps := by
  have := hp.hi
  have := h.ps_pos
  by_cases h0 : o.size = 0
  · rw [hp.left (Or.inr h0)]; omega
  · omega

theorem on_unique {s t a : Nat} (h1 : c.On s a) (h2 : c.On t a) : s = t := by
  unfold Cfg.On at *
  rcases Nat.lt_trichotomy s t with h | h | h
  · have := page_apart (c := c) h; omega
  · exact h
  · have := page_apart (c := c) h; omega

end Verif.Guarded
