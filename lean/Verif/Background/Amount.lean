import Verif.Background.Timing
/-! Bounds on the rounded product. -/
namespace Verif.Background

theorem mul_le_mul' {a b c d : Rat} (h1 : a ≤ b) (h2 : c ≤ d) (h3 : 0 ≤ a) (h4 : 0 ≤ d) : a * c ≤ b * d := by
  have k1 : a * c ≤ a * d := Rat.mul_le_mul_of_nonneg_left h2 h3
  have k2 : d * a ≤ d * b := Rat.mul_le_mul_of_nonneg_left h1 h4
  rw [Rat.mul_comm a d, Rat.mul_comm b d] at *
  exact Rat.le_trans k1 k2

theorem calculated_bounds {rnd : Rat → Rat} (hr : Rounding rnd) {rate : Nat} {el : Int} (h0 : 0 < rate) (h1 : rate < 2 ^ 64)
    (h2 : 0 < el) (h3 : el < 2 ^ 64) :
    share rate el - share rate el / 2 ^ 51 ≤ calculated rnd rate el ∧
    calculated rnd rate el ≤ share rate el + share rate el / 2 ^ 51 := by
  have r1 : (1 : Rat) ≤ rate := by exact_mod_cast h0
  have r2 : (rate : Rat) ≤ 2 ^ 64 := by exact_mod_cast Nat.le_of_lt h1
  have d1 : (1 : Rat) ≤ el := by exact_mod_cast h2
  have d2 : (el : Rat) ≤ 2 ^ 64 := by
    have h := Rat.intCast_le_intCast.2 (Int.le_of_lt h3)
    have e : ((2 ^ 64 : Int) : Rat) = 2 ^ 64 := by decide +kernel
    rw [e] at h
    exact h
  unfold calculated share
  generalize hd : (el : Rat) / 1000000000 = d
  have hx : (rate : Rat) * el / 1000000000 = rate * d := by rw [← hd]; grind
  rw [hx]
  have d3 : (1 : Rat) / 1000000000 ≤ d := by grind
  have d4 : d ≤ 2 ^ 64 := by grind
  generalize (rate : Rat) = r at *
  have a1 := hr.low r (by grind) (by grind)
  have a2 := hr.high r (by grind) (by grind)
  have b1 := hr.low d (by grind) (by grind)
  have b2 := hr.high d (by grind) (by grind)
  generalize rnd r = R at *
  generalize rnd d = D at *
  have hu : (0 : Rat) < 1 / 2 ^ 53 := by decide +kernel
  have x0 : 0 ≤ r * d := Rat.mul_nonneg (by grind) (by grind)
  have lowP : (r - r / 2 ^ 53) * (d - d / 2 ^ 53) ≤ R * D := mul_le_mul' a1 b1 (by grind) (by grind)
  have highP : R * D ≤ (r + r / 2 ^ 53) * (d + d / 2 ^ 53) := mul_le_mul' a2 b2 (by grind) (by grind)
  have lowE : (r - r / 2 ^ 53) * (d - d / 2 ^ 53) = r * d * ((1 - 1 / 2 ^ 53) * (1 - 1 / 2 ^ 53)) := by grind
  have highE : (r + r / 2 ^ 53) * (d + d / 2 ^ 53) = r * d * ((1 + 1 / 2 ^ 53) * (1 + 1 / 2 ^ 53)) := by grind
  rw [lowE] at lowP
  rw [highE] at highP
  have xlo : (1 : Rat) / 1000000000 ≤ r * d := by
    have := mul_le_mul' r1 d3 (by decide) (by grind)
    grind
  have xhi : r * d ≤ 2 ^ 128 := by
    have := mul_le_mul' r2 d4 (by grind) (by decide)
    grind
  generalize r * d = x at *
  generalize R * D = P at *
  have p1 := hr.low P (by grind) (by grind)
  have p2 := hr.high P (by grind) (by grind)
  constructor <;> grind

theorem calculated_zero_rate {rnd : Rat → Rat} (hr : Rounding rnd) (el : Int) : calculated rnd 0 el = 0 := by
  unfold calculated
  have : ((0 : Nat) : Rat) = 0 := rfl
  rw [this, hr.zero, Rat.zero_mul, hr.zero]

theorem calculated_zero_time {rnd : Rat → Rat} (hr : Rounding rnd) (rate : Nat) : calculated rnd rate 0 = 0 := by
  unfold calculated
  have : ((0 : Int) : Rat) / 1000000000 = 0 := by decide +kernel
  rw [this, hr.zero, Rat.mul_zero, hr.zero]

theorem calculated_neg {rnd : Rat → Rat} (hr : Rounding rnd) (rate : Nat) (el : Int) :
    calculated rnd rate (-el) = -calculated rnd rate el := by
  unfold calculated
  have : ((-el : Int) : Rat) / 1000000000 = -((el : Rat) / 1000000000) := by
    rw [Rat.intCast_neg]; grind
  rw [this, hr.odd, Rat.mul_neg, hr.odd]

theorem share_neg (rate : Nat) (el : Int) : share rate (-el) = -share rate el := by
  unfold share
  rw [Rat.intCast_neg]; grind

theorem share_nonneg {rate : Nat} {el : Int} (h : 0 ≤ el) : 0 ≤ share rate el := by
  unfold share
  have h1 : (0 : Rat) ≤ rate := by exact_mod_cast Nat.zero_le rate
  have h2 : (0 : Rat) ≤ el := by exact_mod_cast h
  have := Rat.mul_nonneg h1 h2
  grind

/-- With the sign of the elapsed time. -/
theorem calculated_sign {rnd : Rat → Rat} (hr : Rounding rnd) {rate : Nat} {el : Int} (h1 : rate < 2 ^ 64) (h3 : el < 2 ^ 64) :
    0 ≤ el → share rate el - share rate el / 2 ^ 51 ≤ calculated rnd rate el ∧
    calculated rnd rate el ≤ share rate el + share rate el / 2 ^ 51 := by
  intro h
  by_cases h0 : rate = 0
  · subst h0
    rw [calculated_zero_rate hr]
    have : share 0 el = 0 := by
      unfold share
      have : ((0 : Nat) : Rat) = 0 := rfl
      rw [this]; grind
    rw [this]; decide +kernel
  · by_cases he : el = 0
    · subst he
      rw [calculated_zero_time hr]
      have : share rate 0 = 0 := by
        unfold share
        have : ((0 : Int) : Rat) = 0 := rfl
        rw [this]; grind
      rw [this]; decide +kernel
    · exact calculated_bounds hr (by omega) h1 (by omega) h3

end Verif.Background
