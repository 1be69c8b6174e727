import Verif.TransferCache.Spec
/-! One transfer cache: every operation is defined and moves exactly the objects it should. -/
namespace Verif.TransferCache

structure TC.OK (t : TC) : Prop where
  used : t.used ≤ t.cap
  cap : t.cap ≤ t.max
  low : t.low ≤ t.used

theorem new_ok {cap max : Nat} {slots : Nat → Nat} (h : cap ≤ max) : (TC.new cap max slots).OK ∧
    (TC.new cap max slots).objs = [] := ⟨⟨Nat.zero_le _, h, Nat.le_refl _⟩, rfl⟩

theorem setInfo_some {t : TC} {u c : Nat} (h : u ≤ c) (h' : c ≤ t.max) :
    t.setInfo u c = some { t with used := u, cap := c } := if_pos ⟨h, h'⟩

theorem objs_store {t : TC} {l : List Nat} (f : Nat → Nat) (n : Nat) (hn : n = t.used + l.length)
    (hf : f = fun a => if t.used ≤ a ∧ a < t.used + l.length then l.getD (a - t.used) 0 else t.slots a) :
    (List.range n).map f = t.objs ++ l := by
  subst hn hf
  apply List.ext_getElem
  · simp [TC.objs]
  · intro i h1 h2
    simp only [List.getElem_map, List.getElem_range]
    simp only [List.length_map, List.length_range] at h1
    by_cases hi : i < t.used
    · rw [if_neg (by omega), List.getElem_append_left (by simp [TC.objs, hi])]
      simp [TC.objs]
    · rw [if_pos ⟨by omega, by omega⟩, List.getElem_append_right (by simp [TC.objs]; omega)]
      have e : i - t.objs.length = i - t.used := by simp [TC.objs]
      rw [List.getD_eq_getElem?_getD, List.getElem?_eq_getElem (by omega)]
      simp [e]

theorem objs_split {t : TC} {n : Nat} (h : n ≤ t.used) :
    t.objs = (List.range (t.used - n)).map t.slots ++ (List.range n).map (fun j => t.slots (t.used - n + j)) := by
  unfold TC.objs
  have : t.used = (t.used - n) + n := by omega
  conv => lhs; rw [this]
  rw [List.range_add, List.map_append, List.map_map]
  rfl

theorem objs_length {t : TC} : t.objs.length = t.used := by simp [TC.objs]

/-- What a successful insertion does. -/
theorem insert_spec {t : TC} (h : t.OK) {batch : List Nat} (h0 : batch ≠ []) (h1 : batch.length ≤ kMaxObjectsToMove)
    (hint : Bool) : ∃ t' rest, t.insert batch hint = some (t', rest) ∧ t'.OK ∧
      rest = batch.drop (if hint then min batch.length (t.cap - t.used) else 0) ∧
      t'.objs = t.objs ++ batch.take (if hint then min batch.length (t.cap - t.used) else 0) ∧
      t'.cap = t.cap ∧ t'.max = t.max ∧ t'.low = t.low := by
  obtain ⟨a, b, c⟩ := h
  have hl : batch.length ≠ 0 := by simpa using h0
  unfold TC.insert
  rw [if_neg (by omega)]
  cases hint with
  | false => exact ⟨t, batch, by simp, ⟨a, b, c⟩, by simp, by simp, rfl, rfl, rfl⟩
  | true =>
    rw [if_pos rfl]
    simp only [if_true]
    generalize hg : min batch.length (t.cap - t.used) = got
    by_cases hp : 0 < got
    · rw [if_pos hp, setInfo_some (by omega) b]
      simp only [Option.bind_some]
      unfold TC.store
      rw [if_pos (by rw [List.length_take]; show t.used + _ ≤ t.max; omega)]
      refine ⟨_, _, rfl, ⟨by show t.used + got ≤ t.cap; omega, b, by show t.low ≤ t.used + got; omega⟩, rfl, ?_,
        rfl, rfl, rfl⟩
      exact objs_store _ _ (by rw [List.length_take]; show t.used + got = _; omega) rfl
    · rw [if_neg hp]
      have : got = 0 := by omega
      subst this
      exact ⟨t, batch, rfl, ⟨a, b, c⟩, by simp, by simp, rfl, rfl, rfl⟩

/-- What a removal does: it takes the newest objects. -/
theorem remove_spec {t : TC} (h : t.OK) {n : Nat} (h0 : 0 < n) (h1 : n ≤ kMaxObjectsToMove) (hint : Bool) :
    ∃ t' r, t.remove n hint = some (t', r) ∧ t'.OK ∧ t'.cap = t.cap ∧ t'.max = t.max ∧ t'.low = min t.low t'.used ∧
      ((r = none ∧ t' = t ∧ (hint = true → t.used = 0)) ∨
       ∃ objs, r = some objs ∧ hint = true ∧ objs.length = min n t.used ∧ 0 < objs.length ∧ t.objs = t'.objs ++ objs) := by
  obtain ⟨a, b, c⟩ := h
  unfold TC.remove
  rw [if_neg (by omega)]
  cases hint with
  | false =>
    exact ⟨t, none, by simp, ⟨a, b, c⟩, rfl, rfl, by omega, Or.inl ⟨rfl, rfl, by simp⟩⟩
  | true =>
    rw [if_pos rfl]
    generalize hg : min n t.used = got
    dsimp only
    by_cases hp : got ≠ 0
    · rw [if_pos hp, setInfo_some (by omega) b]
      simp only [Option.bind_some]
      unfold TC.load
      rw [if_pos (by show t.used - got + got ≤ t.max; omega)]
      refine ⟨_, _, rfl, ⟨by show t.used - got ≤ t.cap; omega, b, Nat.min_le_right _ _⟩, rfl, rfl, rfl, Or.inr ?_⟩
      refine ⟨_, rfl, trivial, by simp, by simp; omega, ?_⟩
      exact objs_split (by omega)
    · rw [if_neg hp]
      exact ⟨t, none, rfl, ⟨a, b, c⟩, rfl, rfl, by omega, Or.inl ⟨rfl, rfl, by intro _; omega⟩⟩

theorem turn_spec {B : Nat} {t : TC} (h : t.OK) (hB : B ≤ kMaxObjectsToMove) (r : Nat) :
    ∃ t' q, t.plunderTurn B r = some (t', q) ∧ t'.OK ∧ t'.cap = t.cap ∧ t'.max = t.max ∧
      ((q = none ∧ t' = t ∧ min B (min t.used r) = 0) ∨
       ∃ buf, q = some (buf, r - buf.length) ∧ buf.length = min B (min t.used r) ∧ 0 < buf.length ∧
        t.objs = t'.objs ++ buf ∧ t'.low = t'.used) := by
  obtain ⟨a, b, c⟩ := h
  unfold TC.plunderTurn
  generalize hg : min B (min t.used r) = num
  dsimp only
  by_cases hp : num = 0
  · rw [if_pos hp]
    exact ⟨t, none, rfl, ⟨a, b, c⟩, rfl, rfl, Or.inl ⟨rfl, rfl, hp⟩⟩
  · rw [if_neg hp, if_neg (by omega)]
    unfold TC.load
    rw [if_pos (by omega)]
    simp only [Option.bind_some]
    rw [setInfo_some (t := { t with low := t.used - num }) (by show t.used - num ≤ t.cap; omega) b]
    refine ⟨_, _, rfl, ⟨by show t.used - num ≤ t.cap; omega, b, Nat.le_refl _⟩, rfl, rfl, Or.inr ?_⟩
    refine ⟨(List.range num).map fun j => t.slots (t.used - num + j), by simp, by simp, by simp; omega, ?_, rfl⟩
    exact objs_split (by omega)

theorem plunder_spec {B : Nat} {t : TC} (h : t.OK) (hB : B ≤ kMaxObjectsToMove) :
    ∃ t' q, t.plunder B = some (t', q) ∧ t'.OK ∧ t'.cap = t.cap ∧ t'.max = t.max ∧ t'.low = t'.used ∧
      ((q = none ∧ t'.objs = t.objs ∧ min B t.low = 0) ∨
       ∃ buf, q = some (buf, t.low - buf.length) ∧ buf.length = min B t.low ∧ 0 < buf.length ∧
        t.objs = t'.objs ++ buf) := by
  unfold TC.plunder
  obtain ⟨a, b, c⟩ := h
  by_cases hm : t.max = 0
  · rw [if_pos hm]
    exact ⟨t, none, rfl, ⟨a, b, c⟩, rfl, rfl, by omega, Or.inl ⟨rfl, rfl, by omega⟩⟩
  · rw [if_neg hm, if_neg (by omega)]
    obtain ⟨t', q, e, ok, e1, e2, h2⟩ := turn_spec (t := { t with low := t.used }) ⟨a, b, Nat.le_refl _⟩ hB t.low
    refine ⟨t', q, e, ok, e1, e2, ?_⟩
    have hmin : min t.used t.low = t.low := by omega
    rcases h2 with ⟨rfl, rfl, h3⟩ | ⟨buf, rfl, h3, h4, h5, h6⟩
    · refine ⟨rfl, Or.inl ⟨rfl, rfl, ?_⟩⟩
      have h3' : min B (min t.used t.low) = 0 := h3
      rwa [hmin] at h3'
    · refine ⟨h6, Or.inr ⟨buf, rfl, ?_, h4, h5⟩⟩
      have h3' : buf.length = min B (min t.used t.low) := h3
      rwa [hmin] at h3'

theorem shrink_spec {B : Nat} {t : TC} (h : t.OK) (hB : B ≤ kMaxObjectsToMove) :
    ∃ t' b objs, t.shrink B = some (t', b, objs) ∧ t'.OK ∧ t'.max = t.max ∧ b = decide (B < t.cap) ∧
      t'.cap = (if B < t.cap then t.cap - B else t.cap) ∧ t.objs = t'.objs ++ objs ∧ objs.length ≤ B ∧
      t'.used = min t.used t'.cap ∧ t'.low = min t.low t'.used := by
  obtain ⟨a, b, c⟩ := h
  unfold TC.shrink
  by_cases h0 : t.cap = 0
  · rw [if_pos h0]
    exact ⟨t, _, _, rfl, ⟨a, b, c⟩, rfl, by simp; omega, by rw [if_neg (by omega)], by simp, by simp, by omega, by omega⟩
  rw [if_neg h0]
  by_cases h1 : t.cap ≤ B
  · rw [if_pos h1]
    exact ⟨t, _, _, rfl, ⟨a, b, c⟩, rfl, by simp; omega, by rw [if_neg (by omega)], by simp, by simp, by omega, by omega⟩
  rw [if_neg h1, Nat.min_eq_left (by omega)]
  dsimp only
  by_cases h2 : B ≤ t.cap - t.used
  · rw [if_pos h2, setInfo_some (by omega) (by omega)]
    refine ⟨_, _, _, rfl, ⟨by show t.used ≤ t.cap - B; omega, by show t.cap - B ≤ t.max; omega, c⟩, rfl, by simp; omega,
      by rw [if_pos (by omega)], by simp [TC.objs], by simp, ?_, ?_⟩
    · show t.used = min t.used (t.cap - B); omega
    · show t.low = min t.low t.used; omega
  · rw [if_neg h2, if_neg (by omega), setInfo_some (by omega) (by omega)]
    simp only [Option.bind_some]
    unfold TC.load
    rw [if_pos (by show t.used - (B - (t.cap - t.used)) + _ ≤ t.max; omega)]
    refine ⟨_, _, _, rfl, ⟨?_, by show t.cap - B ≤ t.max; omega, Nat.min_le_right _ _⟩, rfl, by simp; omega,
      by rw [if_pos (by omega)], objs_split (by omega), by simp, ?_, rfl⟩
    · show t.used - (B - (t.cap - t.used)) ≤ t.cap - B; omega
    · show t.used - (B - (t.cap - t.used)) = min t.used (t.cap - B); omega

theorem grow_spec {B : Nat} {t : TC} (h : t.OK) :
    ∃ t' b, t.grow B = some (t', b) ∧ t'.OK ∧ t'.max = t.max ∧ b = decide (t.cap + B ≤ t.max) ∧
      t'.cap = (if t.cap + B ≤ t.max then t.cap + B else t.cap) ∧ t'.objs = t.objs ∧ t'.used = t.used ∧
      t'.low = t.low := by
  obtain ⟨a, b, c⟩ := h
  unfold TC.grow
  by_cases h0 : t.max < t.cap + B
  · rw [if_pos h0]
    exact ⟨t, _, rfl, ⟨a, b, c⟩, rfl, by simp; omega, by rw [if_neg (by omega)], rfl, rfl, rfl⟩
  · rw [if_neg h0, setInfo_some (by omega) (by omega)]
    exact ⟨_, _, rfl, ⟨by show t.used ≤ t.cap + B; omega, by show t.cap + B ≤ t.max; omega, c⟩, rfl, by simp; omega,
      by rw [if_pos (by omega)], rfl, rfl, rfl⟩

end Verif.TransferCache
