import Verif.HookList.Spec
namespace Verif.HookList

theorem getD_set {l : List Nat} {i j : Nat} (hi : i < l.length) (v : Nat) : (l.set i v).getD j 0 = if j = i then v else l.getD j 0 := by
  rw [List.getD_eq_getElem?_getD, List.getElem?_set, List.getD_eq_getElem?_getD]
  by_cases h : i = j
  · subst h; rw [if_pos rfl, if_pos hi, if_pos rfl]; rfl
  · rw [if_neg h, if_neg (fun hh => h hh.symm)]

theorem lower_le (data : List Nat) : ∀ k, lower data k ≤ k
  | 0 => Nat.le_refl _
  | k + 1 => by
    unfold lower; split
    · exact Nat.le_succ_of_le (lower_le data k)
    · exact Nat.le_refl _

theorem lower_zero (data : List Nat) : ∀ k j, lower data k ≤ j → j < k → data.getD j 0 = 0
  | 0, j, _, h => absurd h (Nat.not_lt_zero _)
  | k + 1, j, h, hj => by
    unfold lower at h; split at h
    · rename_i hz
      by_cases hk : j = k
      · rw [hk]; exact hz
      · exact lower_zero data k j h (by omega)
    · omega

/-- What the holder of the lock has found. -/
def WOk (s : St) : Writer → Prop
  | .addData _ v i e => v ≠ 0 ∧ i < 7 ∧ s.data.getD i 0 = 0 ∧ e = s.tail
  | .addEnd _ v i => v ≠ 0 ∧ i < 7 ∧ s.data.getD i 0 = v ∧ s.tail ≤ i
  | .remData _ v i e => v ≠ 0 ∧ i < e ∧ e = s.tail ∧ s.data.getD i 0 = v
  | .remEnd _ v e => v ≠ 0 ∧ e ≤ 7 ∧ ∀ j, e ≤ j → s.data.getD j 0 = 0

def ROk : Reader → Prop
  | .start => True
  | .loop e i n out => i < e ∧ e ≤ 7 ∧ 0 < n ∧ out.length + n = 7 ∧ out.length ≤ i ∧ ∀ d ∈ out, d ≠ 0

/-- Slot `j` is being added. -/
def adding (s : St) (j : Nat) : Prop := ∃ t v, s.lock = some (.addEnd t v j)

structure Inv (s : St) : Prop where
  len : s.data.length = 7
  tail : s.tail ≤ 7
  cover : ∀ j, s.data.getD j 0 ≠ 0 → j < s.tail ∨ adding s j
  writer : ∀ w, s.lock = some w → WOk s w
  reader : ∀ t r, s.rd t = some r → ROk r

theorem Init.inv {f : List Nat} {s : St} (h : Init f s) : Inv s := by
  rcases h with ⟨-, rfl⟩ | ⟨h, -, -, rfl⟩
  · exact ⟨rfl, by decide, fun j hj => absurd (by
      by_cases h7 : j < 7
      · exact (by decide : ∀ j, j < 7 → empty.data.getD j 0 = 0) j h7
      · rw [List.getD_eq_getElem?_getD, List.getElem?_eq_none (by show 7 ≤ j; omega)]; rfl) hj,
      fun w hw => (by cases hw), fun t r hr => (by cases hr)⟩
  · refine ⟨rfl, by show 1 ≤ 7; decide, fun j hj => ?_, fun w hw => (by cases hw), fun t r hr => (by cases hr)⟩
    match j with
    | 0 => exact Or.inl (Nat.one_pos)
    | j + 1 =>
      refine absurd ?_ hj
      show (List.replicate 6 0).getD j 0 = 0
      by_cases h7 : j < 6
      · exact (by decide : ∀ j, j < 6 → (List.replicate 6 0).getD j 0 = 0) j h7
      · rw [List.getD_eq_getElem?_getD, List.getElem?_eq_none (by show 6 ≤ j; omega)]; rfl

theorem findIdx_zero {l : List Nat} {v : Nat} (h : l.findIdx (· == v) < l.length) : l.getD (l.findIdx (· == v)) 0 = v := by
  rw [List.getD_eq_getElem?_getD, List.getElem?_eq_getElem h]
  have := List.findIdx_getElem (w := h)
  simpa using this

/-- `again` changes only one thread. -/
theorem again_facts (s : St) (t e i n : Nat) (out : List Nat) :
    (again s t e i n out).1.data = s.data ∧ (again s t e i n out).1.tail = s.tail ∧ (again s t e i n out).1.lock = s.lock ∧
    (∀ u, u ≠ t → (again s t e i n out).1.rd u = s.rd u) ∧
    ((i < e ∧ n > 0 ∧ (again s t e i n out).1.rd t = some (.loop e i n out) ∧ (again s t e i n out).2 = .none) ∨
      ((e ≤ i ∨ n = 0) ∧ (again s t e i n out).1.rd t = none ∧ (again s t e i n out).2 = .called t out)) := by
  unfold again
  split
  · rename_i h
    refine ⟨rfl, rfl, rfl, fun u hu => ?_, Or.inl ⟨h.1, h.2, ?_, rfl⟩⟩
    · show setRd _ _ _ u = _
      unfold setRd; rw [if_neg hu]
    · show setRd _ _ _ t = _
      unfold setRd; rw [if_pos rfl]
  · rename_i h
    refine ⟨rfl, rfl, rfl, fun u hu => ?_, Or.inr ⟨by omega, ?_, rfl⟩⟩
    · show setRd _ _ _ u = _
      unfold setRd; rw [if_neg hu]
    · show setRd _ _ _ t = _
      unfold setRd; rw [if_pos rfl]

theorem Inv.again {s : St} (I : Inv s) (t e i n : Nat) (out : List Nat) (h : i < e → n > 0 → ROk (.loop e i n out)) :
    Inv (again s t e i n out).1 := by
  obtain ⟨h1, h2, h3, h4, h5⟩ := again_facts s t e i n out
  refine ⟨by rw [h1]; exact I.len, by rw [h2]; exact I.tail, fun j hj => ?_, fun w hw => ?_, fun u r hr => ?_⟩
  · rw [h1] at hj; unfold adding; rw [h2, h3]; exact I.cover j hj
  · rw [h3] at hw
    have := I.writer w hw
    cases w <;> simp only [WOk, h1, h2] at this ⊢ <;> exact this
  · by_cases hu : u = t
    · rcases h5 with ⟨a, b, c, -⟩ | ⟨-, c, -⟩
      · rw [hu, c] at hr; cases hr; exact h a b
      · rw [hu, c] at hr; cases hr
    · rw [h4 u hu] at hr; exact I.reader u r hr

theorem Inv.step {s s' : St} (I : Inv s) {e : Ev} {o : Out} (h : step s e = some (s', o)) : Inv s' := by
  have hlen := I.len
  cases e with
  | add t v =>
    simp only [HookList.step] at h
    split at h
    · cases h; exact I
    split at h
    · cases h
    rename_i hv hl
    have hl : s.lock = none := by cases hh : s.lock <;> simp_all
    split at h
    · cases h; exact I
    · rename_i hi
      cases h
      have hlt : s.data.findIdx (· == 0) < s.data.length := by
        have := List.findIdx_le_length (xs := s.data) (p := (· == 0))
        simp only [maxValues] at hi
        omega
      refine ⟨hlen, I.tail, fun j hj => ?_, fun w hw => ?_, I.reader⟩
      · rcases I.cover j hj with h1 | ⟨a, b, h1⟩
        · exact Or.inl h1
        · rw [hl] at h1; cases h1
      · cases hw
        exact ⟨hv, by omega, findIdx_zero hlt, rfl⟩
  | remove t v =>
    simp only [HookList.step] at h
    split at h
    · cases h; exact I
    split at h
    · cases h
    rename_i hv hl
    have hl : s.lock = none := by cases hh : s.lock <;> simp_all
    split at h
    · cases h; exact I
    · rename_i hi
      cases h
      have htl : (s.data.take s.tail).length = s.tail := by rw [List.length_take]; have := I.tail; omega
      have hlt : (s.data.take s.tail).findIdx (· == v) < (s.data.take s.tail).length := by
        have := List.findIdx_le_length (xs := s.data.take s.tail) (p := (· == v))
        omega
      refine ⟨hlen, I.tail, fun j hj => ?_, fun w hw => ?_, I.reader⟩
      · rcases I.cover j hj with h1 | ⟨a, b, h1⟩
        · exact Or.inl h1
        · rw [hl] at h1; cases h1
      · cases hw
        have h1 := findIdx_zero hlt
        refine ⟨hv, by omega, rfl, ?_⟩
        rw [List.getD_eq_getElem?_getD, List.getElem?_take, if_pos (by omega), ← List.getD_eq_getElem?_getD] at h1
        exact h1
  | write =>
    simp only [HookList.step] at h
    split at h
    · cases h
    · rename_i t v i e hw
      obtain ⟨h1, h2, h3, h4⟩ := I.writer _ hw
      split at h
      · rename_i hi
        have cov : ∀ j, (s.data.set i v).getD j 0 ≠ 0 → j < s.tail ∨ j = i := by
          intro j hj
          rw [getD_set hi] at hj
          split at hj
          · exact Or.inr (by assumption)
          · rcases I.cover j hj with h1 | ⟨a, b, h1⟩
            · exact Or.inl h1
            · rw [hw] at h1; cases h1
        split at h
        · rename_i he
          cases h
          refine ⟨by rw [List.length_set]; exact hlen, I.tail, fun j hj => ?_, fun w hw => ?_, I.reader⟩
          · rcases cov j hj with h1 | h1
            · exact Or.inl h1
            · exact Or.inr ⟨t, v, by rw [h1]⟩
          · cases hw
            exact ⟨h1, h2, by show (s.data.set i v).getD i 0 = v; rw [getD_set hi, if_pos rfl], by show s.tail ≤ i; omega⟩
        · rename_i he
          cases h
          refine ⟨by rw [List.length_set]; exact hlen, I.tail, fun j hj => ?_, fun w hw => (by cases hw), I.reader⟩
          rcases cov j hj with h1 | h1
          · exact Or.inl h1
          · exact Or.inl (by show j < s.tail; omega)
      · cases h
    · rename_i t v i hw
      obtain ⟨h1, h2, h3, h4⟩ := I.writer _ hw
      cases h
      refine ⟨hlen, by show i + 1 ≤ 7; omega, fun j hj => ?_, fun w hw => (by cases hw), I.reader⟩
      rcases I.cover j hj with h1 | ⟨a, b, h1⟩
      · exact Or.inl (by show j < i + 1; omega)
      · rw [hw] at h1; cases h1; exact Or.inl (Nat.lt_succ_self _)
    · rename_i t v i e hw
      obtain ⟨h1, h2, h3, h4⟩ := I.writer _ hw
      split at h
      · rename_i hi
        have cov : ∀ j, (s.data.set i 0).getD j 0 ≠ 0 → j < s.tail ∧ j ≠ i := by
          intro j hj
          rw [getD_set hi] at hj
          split at hj
          · exact absurd rfl hj
          · rcases I.cover j hj with h1 | ⟨a, b, h1⟩
            · exact ⟨h1, by assumption⟩
            · rw [hw] at h1; cases h1
        split at h
        · rename_i he
          cases h
          refine ⟨by rw [List.length_set]; exact hlen, I.tail, fun j hj => Or.inl (cov j hj).1, fun w hw => ?_, I.reader⟩
          cases hw
          have ht := I.tail
          have hle := lower_le (s.data.set i 0) i
          refine ⟨h1, by omega, fun j hj => ?_⟩
          by_cases hji : j < i
          · exact lower_zero _ _ _ hj hji
          · refine Classical.not_not.1 fun hne => ?_
            have := cov j hne
            omega
        · cases h
          exact ⟨by rw [List.length_set]; exact hlen, I.tail, fun j hj => Or.inl (cov j hj).1, fun w hw => (by cases hw), I.reader⟩
      · cases h
    · rename_i t v e hw
      obtain ⟨h1, h2, h3⟩ := I.writer _ hw
      cases h
      refine ⟨hlen, h2, fun j hj => ?_, fun w hw => (by cases hw), I.reader⟩
      refine Or.inl (Classical.not_not.1 fun hne => hj (h3 j (by show e ≤ j; have : ¬ j < e := hne; omega)))
  | invoke t =>
    simp only [HookList.step] at h
    split at h
    · cases h
    split at h
    · cases h; exact I
    · cases h
      refine ⟨hlen, I.tail, I.cover, fun w hw => ?_, fun u r hr => ?_⟩
      · have := I.writer w hw
        cases w <;> exact this
      · simp only [setRd] at hr
        split at hr
        · cases hr; trivial
        · exact I.reader u r hr
  | read t =>
    simp only [HookList.step] at h
    split at h
    · cases h
    · rename_i hr
      simp only [Option.some.injEq, Prod.ext_iff] at h
      rw [← h.1]
      exact I.again _ _ _ _ _ fun h1 h2 => ⟨h1, I.tail, by decide, rfl, Nat.zero_le _, fun d hd => (by cases hd)⟩
    · rename_i e i n out hr
      obtain ⟨g1, g2, g3, g4, g5, g6⟩ := I.reader _ _ hr
      split at h
      · cases h
      · split at h
        · simp only [Option.some.injEq, Prod.ext_iff] at h
          rw [← h.1]
          refine I.again _ _ _ _ _ fun h1 h2 => ⟨h1, g2, h2, ?_, ?_, ?_⟩
          · rw [List.length_append, List.length_singleton]; omega
          · rw [List.length_append, List.length_singleton]; omega
          · intro d hd
            rcases List.mem_append.1 hd with hd | hd
            · exact g6 d hd
            · rw [List.mem_singleton.1 hd]; assumption
        · simp only [Option.some.injEq, Prod.ext_iff] at h
          rw [← h.1]
          exact I.again _ _ _ _ _ fun h1 h2 => ⟨h1, g2, h2, g4, by omega, g6⟩

theorem Exec.inv {s s' : St} {tr : List (Ev × Out)} (h : Exec s tr s') (I : Inv s) : Inv s' := by
  induction h with
  | nil => exact I
  | cons h _ ih => exact ih (I.step h)

end Verif.HookList
