import Verif.Slab.Spec
/-! Layout of a region: the ranges of the classes, the begin markers, and what `InitCpuImpl` writes. -/
namespace Verif.Slab

theorem beginOf_succ (nc : Nat) (caps : Nat → Nat) (k : Nat) :
    beginOf nc caps (k + 1) = if (walk nc caps k).2 then (walk nc caps k).1 else (walk nc caps k).1 + 1 := rfl

theorem walk_eq (nc : Nat) (caps : Nat → Nat) {k : Nat} (hk : 1 ≤ k) :
    (walk nc caps k).1 = beginOf nc caps k + caps k ∧ (walk nc caps k).2 = (caps k == 0) := by
  obtain ⟨j, rfl⟩ : ∃ j, k = j + 1 := ⟨k - 1, by omega⟩
  exact ⟨rfl, rfl⟩

theorem beginOf_next (nc : Nat) (caps : Nat → Nat) {k : Nat} (hk : 1 ≤ k) :
    beginOf nc caps (k + 1) = beginOf nc caps k + caps k + (if caps k = 0 then 0 else 1) := by
  rw [beginOf_succ, (walk_eq nc caps hk).1, (walk_eq nc caps hk).2]
  by_cases h : caps k = 0 <;> simp [h]

theorem beginOf_one (nc : Nat) (caps : Nat → Nat) : beginOf nc caps 1 = hdrWords nc + 1 := rfl

theorem beginOf_ge (nc : Nat) (caps : Nat → Nat) {k : Nat} (hk : 1 ≤ k) : hdrWords nc + 1 ≤ beginOf nc caps k := by
  induction k with
  | zero => omega
  | succ k ih =>
    by_cases h : 1 ≤ k
    · rw [beginOf_next nc caps h]; have := ih h; omega
    · obtain rfl : k = 0 := by omega
      rw [beginOf_one]; omega

theorem beginOf_mono (nc : Nat) (caps : Nat → Nat) {k k' : Nat} (hk : 1 ≤ k) (h : k < k') :
    beginOf nc caps k + caps k + (if caps k = 0 then 0 else 1) ≤ beginOf nc caps k' := by
  induction k' with
  | zero => omega
  | succ j ih =>
    by_cases e : k = j
    · subst e; rw [beginOf_next nc caps hk]; exact Nat.le_refl _
    · have := ih (by omega)
      rw [beginOf_next nc caps (by omega)]
      omega

theorem Fits.end_lt {nc caps lim} (f : Fits nc caps lim) {k : Nat} (hk : Valid nc k) :
    beginOf nc caps k + caps k < 65536 := by
  rw [← (walk_eq nc caps hk.1).1]; exact f.small k hk

theorem Fits.end_le {nc caps lim} (f : Fits nc caps lim) {k : Nat} (hk : Valid nc k) :
    beginOf nc caps k + caps k ≤ lim := by
  rw [← (walk_eq nc caps hk.1).1]; exact f.room k hk

theorem Fits.mod {nc caps lim} (f : Fits nc caps lim) {k : Nat} (hk : Valid nc k) :
    beginOf nc caps k % 65536 = beginOf nc caps k := Nat.mod_eq_of_lt (by have := f.end_lt hk; omega)

theorem Fits.check {nc caps lim} (f : Fits nc caps lim) :
    ((List.range nc).all fun k => k = 0 || decide (caps k < 65536 ∧ (walk nc caps k).1 ≤ lim)) = true := by
  rw [List.all_eq_true]
  intro k hk
  rw [List.mem_range] at hk
  by_cases h : k = 0
  · simp [h]
  · have hv : Valid nc k := ⟨by omega, hk⟩
    simp [f.cap k hv, f.room k hv]

theorem Fits.initSlabs {nc caps lim} (f : Fits nc caps lim) :
    initSlabs nc caps lim = some (fun k => beginOf nc caps k % 65536) := by
  unfold Slab.initSlabs
  rw [if_pos f.check]

/-- A region with the layout of `caps`: headers in range, markers in place, objects where the header says. -/
structure RegOK (nc : Nat) (caps begins : Nat → Nat) (m : Mem) (b c : Nat) : Prop where
  lo : ∀ k, Valid nc k → begins k ≤ (m.hdr b c k).cur
  mid : ∀ k, Valid nc k → (m.hdr b c k).cur ≤ (m.hdr b c k).fin
  hi : ∀ k, Valid nc k → (m.hdr b c k).fin ≤ begins k + caps k
  mark : ∀ k, Valid nc k → m.slot b c (begins k - 1) % 2 = 1
  objs : ∀ k, Valid nc k → ∀ i, begins k ≤ i → i < (m.hdr b c k).cur → GoodObj (m.slot b c i)

/-- A region as `InitCpuImpl` leaves it. -/
structure Fresh (nc : Nat) (caps : Nat → Nat) (m : Mem) (b c : Nat) : Prop where
  hdr : ∀ k, Valid nc k → m.hdr b c k = ⟨beginOf nc caps k, beginOf nc caps k⟩
  mark : ∀ k, Valid nc k → m.slot b c (beginOf nc caps k - 1) % 2 = 1

theorem Fresh.reg {nc caps begins m b c} (f : Fresh nc caps m b c)
    (hb : ∀ k, Valid nc k → begins k = beginOf nc caps k) : RegOK nc caps begins m b c := by
  refine ⟨?_, ?_, ?_, ?_, ?_⟩
  · intro k hk; rw [f.hdr k hk, hb k hk]; exact Nat.le_refl _
  · intro k hk; rw [f.hdr k hk]; exact Nat.le_refl _
  · intro k hk; rw [f.hdr k hk, hb k hk]; exact Nat.le_add_right _ _
  · intro k hk; rw [hb k hk]; exact f.mark k hk
  · intro k hk i h1 h2; rw [f.hdr k hk] at h2; rw [hb k hk] at h1; exact absurd h2 (by simp; omega)

theorem initUpTo_off {nc caps m b c} (j : Nat) {b' c' : Nat} (h : ¬ (b' = b ∧ c' = c)) :
    (∀ k, (initUpTo nc caps m b c j).hdr b' c' k = m.hdr b' c' k) ∧
    (∀ i, (initUpTo nc caps m b c j).slot b' c' i = m.slot b' c' i) := by
  induction j with
  | zero => exact ⟨fun _ => rfl, fun _ => rfl⟩
  | succ j ih =>
    refine ⟨fun k => ?_, fun i => ?_⟩
    · rw [← ih.1 k]
      simp only [initUpTo, initClass, Mem.setH]
      rw [if_neg (by omega)]
      split <;> rfl
    · rw [← ih.2 i]
      simp only [initUpTo, initClass, Mem.setH, Mem.setS]
      split
      · rfl
      · simp only []
        rw [if_neg (by omega)]

theorem initUpTo_odd {nc caps m b c} (j i : Nat) (h : (initUpTo nc caps m b c j).slot b c i % 2 = 1) :
    (initUpTo nc caps m b c (j + 1)).slot b c i % 2 = 1 := by
  simp only [initUpTo, initClass, Mem.setH, Mem.setS]
  split
  · exact h
  · simp only []
    split
    · omega
    · exact h

theorem initUpTo_spec {nc caps m b c} (j : Nat) : ∀ k, 1 ≤ k → k ≤ j →
    (initUpTo nc caps m b c j).hdr b c k = ⟨beginOf nc caps k % 65536, beginOf nc caps k % 65536⟩ ∧
    (initUpTo nc caps m b c j).slot b c (beginOf nc caps k - 1) % 2 = 1 := by
  induction j with
  | zero => intro k h1 h2; omega
  | succ j ih =>
    intro k h1 h2
    by_cases e : k = j + 1
    · subst e
      constructor
      · simp [initUpTo, initClass, Mem.setH]
      · by_cases hw : (walk nc caps j).2 = true
        · have hj : 1 ≤ j := by
            rcases Nat.eq_zero_or_pos j with rfl | h
            · simp [walk] at hw
            · exact h
          have hc : caps j = 0 := by
            rw [(walk_eq nc caps hj).2] at hw; simpa using hw
          have : beginOf nc caps (j + 1) = beginOf nc caps j := by
            rw [beginOf_next nc caps hj, hc]; simp
          rw [this]
          exact initUpTo_odd j _ (ih j hj (Nat.le_refl _)).2
        · have : beginOf nc caps (j + 1) - 1 = (walk nc caps j).1 := by
            rw [beginOf_succ, if_neg hw]; omega
          rw [this]
          simp only [initUpTo, initClass, Nat.add_sub_cancel, if_neg hw, Mem.setH, Mem.setS]
          simp
    · obtain ⟨i1, i2⟩ := ih k h1 (by omega)
      constructor
      · rw [← i1]
        simp only [initUpTo, initClass, Mem.setH]
        rw [if_neg (by omega)]
        split <;> rfl
      · exact initUpTo_odd j _ i2

theorem initCpu_spec {nc caps lim m b c} (f : Fits nc caps lim) :
    ∃ m', initCpu nc caps lim true m b c = some m' ∧ Fresh nc caps m' b c ∧
      ∀ b' c', ¬ (b' = b ∧ c' = c) → (∀ k, m'.hdr b' c' k = m.hdr b' c' k) ∧ (∀ i, m'.slot b' c' i = m.slot b' c' i) := by
  refine ⟨initUpTo nc caps m b c (nc - 1), ?_, ⟨?_, ?_⟩, fun b' c' h => initUpTo_off _ h⟩
  · unfold initCpu
    rw [if_pos ⟨rfl, f.lim, f.check⟩]
  · intro k hk
    have := (initUpTo_spec (m := m) (b := b) (c := c) (caps := caps) (nc := nc) (nc - 1) k hk.1 (by have := hk.2; omega)).1
    rw [this, f.mod hk]
  · intro k hk
    exact (initUpTo_spec (nc - 1) k hk.1 (by have := hk.2; omega)).2

end Verif.Slab
