import Verif.TimeSeries.Spec
/-! Lemmas: the ring of slots as a list. -/
namespace Verif.TimeSeries
variable {T S : Type}

theorem bitWidth_spec {d : Nat} (h : 0 < d) : 2 ^ (bitWidth d - 1) ≤ d ∧ d < 2 ^ bitWidth d ∧ 0 < bitWidth d := by
  unfold bitWidth
  rw [if_neg (by omega)]
  refine ⟨?_, Nat.lt_log2_self, by omega⟩
  rw [Nat.add_sub_cancel]
  exact Nat.log2_self_le (by omega)

/-- `GetCurrentEpoch` divides, exactly. -/
theorem currentEpoch_eq {d t : Nat} (hd : GoodTicks d) (ht : t < 2 ^ 63) : currentEpoch d t = t / d := by
  obtain ⟨h0, h64, hp⟩ := hd
  obtain ⟨b1, b2, b3⟩ := bitWidth_spec h0
  have b1' : 2 ^ (bitWidth d - 1) < d := by
    rcases Nat.lt_or_eq_of_le b1 with h | h
    · exact h
    · exact absurd h.symm (hp _)
  unfold currentEpoch epochTicksM divPrecision
  generalize bitWidth d = L at *
  have e1 : 2 ^ (63 + L) = 2 ^ 64 * 2 ^ (L - 1) := by rw [← Nat.pow_add]; congr 1; omega
  -- the quotient fits in 64 bits
  have hq : 2 ^ (63 + L) / d < 2 ^ 64 := by
    rw [Nat.div_lt_iff_lt_mul h0, e1]
    exact Nat.mul_lt_mul_of_pos_left b1' (by decide)
  have hq1 : 2 ^ (63 + L) / d + 1 ≤ 2 ^ 64 := hq
  -- and it is not 2^64 - 1 either
  have hdm := Nat.div_add_mod (2 ^ (63 + L)) d
  have hml := Nat.mod_lt (2 ^ (63 + L)) h0
  have hq2 : 2 ^ (63 + L) / d + 1 < 2 ^ 64 := by
    rcases Nat.lt_or_eq_of_le hq1 with h | h
    · exact h
    · exfalso
      have hq3 : 2 ^ (63 + L) / d = 2 ^ 64 - 1 := by omega
      rw [hq3, e1] at hdm
      -- d (2^64 - 1) ≤ 2^64 (d - 1) would need d ≥ 2^64
      have hd1 : 2 ^ (L - 1) ≤ d - 1 := by omega
      have := Nat.mul_le_mul_left (2 ^ 64) hd1
      rw [Nat.mul_sub, Nat.mul_one] at this
      rw [Nat.mul_comm d, Nat.sub_mul, Nat.one_mul] at hdm
      have hge : 2 ^ 64 ≤ 2 ^ 64 * d := Nat.le_mul_of_pos_right _ h0
      have hge2 : d ≤ 2 ^ 64 * d := Nat.le_mul_of_pos_left _ (by decide)
      generalize 2 ^ 64 * d = A at *
      generalize 2 ^ 64 * 2 ^ (L - 1) = B at *
      omega
  rw [Nat.mod_eq_of_lt hq, Nat.mod_eq_of_lt hq2]
  generalize hM : 2 ^ (63 + L) / d + 1 = M at *
  have hmt : M * t < 2 ^ 128 := by
    have : M * t ≤ 2 ^ 64 * 2 ^ 63 := Nat.mul_le_mul (by omega) (by omega)
    have e : (2 : Nat) ^ 64 * 2 ^ 63 < 2 ^ 128 := by decide
    omega
  rw [Nat.mod_eq_of_lt hmt, Nat.shiftRight_eq_div_pow]
  -- M d is a little more than 2^(63 + L)
  have hMd : 2 ^ (63 + L) < d * M ∧ d * M ≤ 2 ^ (63 + L) + d := by
    rw [← hM, Nat.mul_add, Nat.mul_one]
    omega
  have hP : 0 < 2 ^ (63 + L) := Nat.pow_pos (by decide)
  have hdt := Nat.div_add_mod t d
  have hmt2 := Nat.mod_lt t h0
  -- lower bound: 2^P (t / d) ≤ M t; upper bound: M t < 2^P (t / d + 1)
  apply Nat.div_eq_of_lt_le
  · -- (t/d) 2^P ≤ M t
    have h1 : t / d * 2 ^ (63 + L) ≤ t / d * (d * M) := Nat.mul_le_mul_left _ (Nat.le_of_lt hMd.1)
    have h2 : t / d * (d * M) ≤ t * M := by
      rw [← Nat.mul_assoc]
      apply Nat.mul_le_mul_right
      rw [Nat.mul_comm]
      omega
    rw [Nat.mul_comm M t]
    omega
  · have h1 : d * (M * t) < d * ((t / d + 1) * 2 ^ (63 + L)) := by
      have h2 : d * (M * t) ≤ (2 ^ (63 + L) + d) * t := by
        rw [← Nat.mul_assoc]
        exact Nat.mul_le_mul_right _ hMd.2
      have h3 : d * t < 2 ^ (63 + L) := by
        have e : 2 ^ (63 + L) = 2 ^ L * 2 ^ 63 := by rw [← Nat.pow_add]; congr 1; omega
        rw [e]
        exact Nat.mul_lt_mul'' b2 ht
      have h4 : 2 ^ (63 + L) * (t + 1) ≤ 2 ^ (63 + L) * (d * (t / d + 1)) := by
        apply Nat.mul_le_mul_left
        rw [Nat.mul_add]
        omega
      have e5 : d * ((t / d + 1) * 2 ^ (63 + L)) = 2 ^ (63 + L) * (d * (t / d + 1)) := by
        rw [← Nat.mul_assoc, Nat.mul_comm]
      rw [e5]
      rw [Nat.add_mul] at h2
      rw [Nat.mul_add, Nat.mul_one] at h4
      omega
    exact Nat.lt_of_mul_lt_mul_left h1

/-! ### The ring -/

/-- The slots, newest first. -/
def ring (K : Nat) (s : Tr T) : List (Entry T) := (List.range K).map fun i => s.entries ((s.cur + K - i) % K)

theorem ring_length {K : Nat} {s : Tr T} : (ring K s).length = K := by simp [ring]

theorem ring_get {K : Nat} {s : Tr T} {i : Nat} (h : i < K) : (ring K s)[i]? = some (s.entries ((s.cur + K - i) % K)) := by
  simp [ring, h]

/-- The loop without limit on the number of slots. -/
def visitL (E : Nat) : Nat → Nat → List (Entry T) → List (Entry T)
  | 0, _, _ => []
  | _, _, [] => []
  | n + 1, tr, e :: r => e :: if E ≤ tr + e.delta then [] else visitL E n (tr + e.delta) r

theorem visit_ring {K : Nat} {s : Tr T} (hc : s.cur < K) {E : Nat} : ∀ (n i tr : Nat), i + n ≤ K →
    visit K s E n ((s.cur + K - i) % K) tr = visitL E n tr ((ring K s).drop i) := by
  intro n
  induction n with
  | zero => intro i tr h; simp [visit, visitL]
  | succ n ih =>
    intro i tr h
    have hi : i < K := by omega
    have hg : (ring K s)[i]'(by rw [ring_length]; exact hi) = s.entries ((s.cur + K - i) % K) := by
      have := ring_get (s := s) hi
      rw [List.getElem?_eq_getElem (by rw [ring_length]; exact hi)] at this
      exact Option.some.inj this
    rw [List.drop_eq_getElem_cons (by rw [ring_length]; exact hi), hg]
    unfold visit visitL
    dsimp only
    congr 1
    split
    · rfl
    · rcases Nat.eq_zero_or_pos n with rfl | hn
      · simp [visit, visitL]
      · rw [← ih (i + 1) _ (by omega)]
        congr 1
        have e1 : (s.cur + K - i) % K = if s.cur < i then s.cur + K - i else s.cur - i := by
          split
          · exact Nat.mod_eq_of_lt (by omega)
          · rw [show s.cur + K - i = s.cur - i + K from by omega, Nat.add_mod_right, Nat.mod_eq_of_lt (by omega)]
        have e2 : (s.cur + K - (i + 1)) % K = if s.cur < i + 1 then s.cur + K - (i + 1) else s.cur - (i + 1) := by
          split
          · exact Nat.mod_eq_of_lt (by omega)
          · rw [show s.cur + K - (i + 1) = s.cur - (i + 1) + K from by omega, Nat.add_mod_right, Nat.mod_eq_of_lt (by omega)]
        rw [e1, e2]
        split <;> split <;> split <;> omega

def dsum (l : List (Entry T)) : Nat := (l.map Entry.delta).sum

theorem dsum_append {a b : List (Entry T)} : dsum (a ++ b) = dsum a + dsum b := by simp [dsum]

/-- The loop stops inside the part of the ring that is in use. -/
theorem visitL_append {E : Nat} : ∀ (A B : List (Entry T)) (n tr : Nat), (∀ e ∈ A, 0 < e.delta) → E ≤ tr + dsum A → tr < E →
    (A.length ≤ n ∨ E ≤ tr + n) → visitL E n tr (A ++ B) = visitL E A.length tr A := by
  intro A
  induction A with
  | nil => intro B n tr _ h1 h2; simp [dsum] at h1; omega
  | cons e r ih =>
    intro B n tr hp h1 h2 hn
    have hd := hp e (List.mem_cons_self ..)
    cases n with
    | zero => simp at hn; omega
    | succ n =>
      simp only [List.cons_append, List.length_cons, visitL]
      congr 1
      split
      · rfl
      · rename_i hlt
        apply ih
        · intro x hx; exact hp x (List.mem_cons_of_mem _ hx)
        · simp only [dsum, List.map_cons, List.sum_cons] at h1 ⊢; omega
        · omega
        · simp only [List.length_cons] at hn; omega

end Verif.TimeSeries
