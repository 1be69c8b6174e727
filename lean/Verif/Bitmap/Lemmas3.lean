import Verif.Bitmap.Lemmas2
/-! Helper lemmas: PopBatch, complement and Scale. -/
namespace Verif.Bitmap

theorem bitAt_cons_lo (w : Word) (ws : List Word) {k : Nat} (hk : k < 64) :
    bitAt (w :: ws) k = w.getLsbD k := by
  unfold bitAt; rw [show k / 64 = 0 by omega, show k % 64 = k by omega]; rfl

theorem bitAt_cons_hi (w : Word) (ws : List Word) (k : Nat) :
    bitAt (w :: ws) (64 + k) = bitAt ws k := by
  unfold bitAt
  rw [show (64 + k) / 64 = k / 64 + 1 by omega, show (64 + k) % 64 = k % 64 by omega]
  rfl

theorem getLsbD_lt {w : Word} {k : Nat} (h : w.getLsbD k = true) : k < 64 := by
  apply Classical.byContradiction
  intro hn
  rw [BitVec.getLsbD_of_ge w k (by omega)] at h
  simp at h

theorem popWord_spec : ∀ (room : Nat) (w : Word),
    (popWord w room).2.Pairwise (· < ·) ∧
    (∀ k ∈ (popWord w room).2, w.getLsbD k = true) ∧
    (∀ k, (popWord w room).1.getLsbD k = (w.getLsbD k && decide (k ∉ (popWord w room).2))) ∧
    (popWord w room).2.length ≤ room ∧
    ((popWord w room).2.length < room → (popWord w room).1 = 0#64) ∧
    (∀ k ∈ (popWord w room).2, ∀ k', (popWord w room).1.getLsbD k' = true → k < k') := by
  intro room
  induction room with
  | zero => intro w; simp [popWord]
  | succ room ih =>
    intro w
    unfold popWord
    by_cases hw : w ≠ 0#64
    · rw [if_pos hw]
      simp only
      obtain ⟨i1, i2, i3, i4, i5, i6⟩ := ih (w &&& (w - 1#64))
      obtain ⟨t1, t2, t3⟩ := ctz_spec hw
      generalize popWord (w &&& (w - 1#64)) room = r at *
      have hlow : ∀ k, w.getLsbD k = true → ctz w ≤ k := by
        intro k hk
        apply Classical.byContradiction
        intro hn
        rw [t3 k (by omega)] at hk; simp at hk
      have hmem : ∀ k ∈ r.2, w.getLsbD k = true ∧ ctz w < k := by
        intro k hk
        have h1 := i2 k hk
        rw [clear_lowest w hw k] at h1
        simp at h1
        have := hlow k h1.1
        exact ⟨h1.1, by omega⟩
      refine ⟨List.pairwise_cons.2 ⟨fun k hk => (hmem k hk).2, i1⟩, ?_, ?_, by simp; omega, ?_, ?_⟩
      · intro k hk
        rcases List.mem_cons.1 hk with rfl | hk
        · exact t2
        · exact (hmem k hk).1
      · intro k
        rw [i3 k, clear_lowest w hw k]
        rw [Bool.eq_iff_iff]
        simp [and_assoc]
      · intro hlt
        simp at hlt
        exact i5 (by omega)
      · intro k hk k' hk'
        have h1 := i3 k'
        rw [hk', clear_lowest w hw k'] at h1
        simp at h1
        have := hlow k' h1.1.1
        rcases List.mem_cons.1 hk with rfl | hk
        · omega
        · exact i6 k hk k' hk'
    · rw [if_neg hw]
      have : w = 0#64 := by simpa using hw
      simp [this]

theorem popBatch_spec : ∀ (ws : List Word) (i room : Nat),
    (popBatch ws i room).1.length = ws.length ∧
    (popBatch ws i room).2.Pairwise (· < ·) ∧
    (∀ x ∈ (popBatch ws i room).2, ∃ j, x = i * 64 + j ∧ bitAt ws j = true) ∧
    (∀ j, bitAt (popBatch ws i room).1 j = true ↔
      bitAt ws j = true ∧ i * 64 + j ∉ (popBatch ws i room).2) ∧
    (popBatch ws i room).2.length ≤ room ∧
    ((popBatch ws i room).2.length < room → ∀ j, bitAt (popBatch ws i room).1 j = false) ∧
    (∀ x ∈ (popBatch ws i room).2, ∀ j, bitAt (popBatch ws i room).1 j = true → x < i * 64 + j) := by
  intro ws
  induction ws with
  | nil => intro i room; simp [popBatch, bitAt]
  | cons w ws ih =>
    intro i room
    unfold popBatch
    by_cases hr : room = 0
    · rw [if_pos hr]; subst hr; simp
    · rw [if_neg hr]
      simp only
      obtain ⟨p1, p2, p3, p4, p5, p6⟩ := popWord_spec room w
      generalize popWord w room = r at *
      obtain ⟨q1, q2, q3, q4, q5, q6, q7⟩ := ih (i + 1) (room - r.2.length)
      generalize popBatch ws (i + 1) (room - r.2.length) = s at *
      have hsplit : ∀ j, (j < 64 ∨ ∃ k, j = 64 + k) := by
        intro j
        by_cases h : j < 64
        · exact Or.inl h
        · exact Or.inr ⟨j - 64, by omega⟩
      have hmemL : ∀ x, x ∈ r.2.map (i * 64 + ·) → ∃ k, k < 64 ∧ k ∈ r.2 ∧ x = i * 64 + k := by
        intro x hx
        obtain ⟨k, hk, rfl⟩ := List.mem_map.1 hx
        exact ⟨k, getLsbD_lt (p2 k hk), hk, rfl⟩
      have hmemR : ∀ x ∈ s.2, ∃ k, x = i * 64 + 64 + k ∧ bitAt ws k = true := by
        intro x hx
        obtain ⟨k, rfl, hk⟩ := q3 x hx
        exact ⟨k, by omega, hk⟩
      refine ⟨by simp [q1], ?_, ?_, ?_, ?_, ?_, ?_⟩
      · rw [List.pairwise_append]
        refine ⟨?_, q2, ?_⟩
        · rw [List.pairwise_map]
          exact p1.imp (by intro a b h; omega)
        · intro a ha b hb
          obtain ⟨k, hk, -, rfl⟩ := hmemL a ha
          obtain ⟨k', rfl, -⟩ := hmemR b hb
          omega
      · intro x hx
        rcases List.mem_append.1 hx with hx | hx
        · obtain ⟨k, hk, hkm, rfl⟩ := hmemL x hx
          exact ⟨k, rfl, by rw [bitAt_cons_lo _ _ hk]; exact p2 k hkm⟩
        · obtain ⟨k, rfl, hk⟩ := hmemR x hx
          exact ⟨64 + k, by omega, by rw [bitAt_cons_hi]; exact hk⟩
      · intro j
        rcases hsplit j with hj | ⟨k, rfl⟩
        · rw [bitAt_cons_lo _ _ hj, bitAt_cons_lo _ _ hj, p3]
          have : (i * 64 + j ∉ r.2.map (i * 64 + ·) ++ s.2) ↔ j ∉ r.2 := by
            rw [List.mem_append, not_or]
            constructor
            · rintro ⟨h1, _⟩ h2
              exact h1 (List.mem_map.2 ⟨j, h2, rfl⟩)
            · intro h
              constructor
              · intro h1
                obtain ⟨k, hk, hkm, he⟩ := hmemL _ h1
                have : j = k := by omega
                subst this; exact h hkm
              · intro h1
                obtain ⟨k, he, -⟩ := hmemR _ h1
                omega
          rw [this]; simp
        · rw [bitAt_cons_hi, bitAt_cons_hi, q4]
          have : (i * 64 + (64 + k) ∉ r.2.map (i * 64 + ·) ++ s.2) ↔ (i + 1) * 64 + k ∉ s.2 := by
            rw [List.mem_append, not_or, show i * 64 + (64 + k) = (i + 1) * 64 + k by omega]
            constructor
            · exact fun h => h.2
            · intro h
              refine ⟨?_, h⟩
              intro h1
              obtain ⟨k', hk', -, he⟩ := hmemL _ h1
              omega
          rw [this]
      · simp; omega
      · intro hlt j
        simp at hlt
        rcases hsplit j with hj | ⟨k, rfl⟩
        · rw [bitAt_cons_lo _ _ hj, p5 (by omega)]; simp
        · rw [bitAt_cons_hi]; exact q6 (by omega) k
      · intro x hx j hj
        rcases List.mem_append.1 hx with hx | hx
        · obtain ⟨k, hk, hkm, rfl⟩ := hmemL x hx
          rcases hsplit j with hjl | ⟨k', rfl⟩
          · rw [bitAt_cons_lo _ _ hjl] at hj
            have := p6 k hkm j hj; omega
          · omega
        · rcases hsplit j with hjl | ⟨k', rfl⟩
          · exfalso
            rw [bitAt_cons_lo _ _ hjl] at hj
            have hne : s.2 ≠ [] := List.ne_nil_of_mem hx
            have : 0 < s.2.length := List.length_pos_iff.2 hne
            have hz := p5 (by omega)
            rw [hz] at hj
            simp at hj
          · rw [bitAt_cons_hi] at hj
            have := q7 x hx k' hj
            omega

theorem complement_spec {N : Nat} {ws : List Word} (h : WF N ws) :
    WF N (complement N ws) ∧ ∀ j, j < N → bitAt (complement N ws) j = !bitAt ws j := by
  have hlen := h.len
  have hmap : ∀ j, bitAt (ws.map (~~~·)) j = (decide (j / 64 < ws.length) && !bitAt ws j) := by
    intro j
    unfold bitAt
    rw [List.getElem?_map]
    by_cases hj : j / 64 < ws.length
    · rw [List.getElem?_eq_getElem hj]
      simp [hj]; omega
    · have : ws[j / 64]? = none := by simp; omega
      rw [this]; simp [hj]
  have key : ∀ j, bitAt (complement N ws) j = (decide (j < N) && !bitAt ws j) := by
    intro j
    unfold complement
    by_cases hd : 64 * kWords N - N > 0
    · rw [if_pos hd]
      unfold bitAt
      rw [List.getElem?_modify]
      have hmj := hmap j
      unfold bitAt at hmj
      by_cases hj : kWords N - 1 = j / 64
      · simp only [if_pos hj, Option.map_eq_map]
        by_cases hl : j / 64 < ws.length
        · rw [List.getElem?_eq_getElem (by simpa using hl)] at hmj ⊢
          simp only [Option.map_some] at hmj ⊢
          rw [BitVec.getLsbD_and, hmj, BitVec.getLsbD_ushiftRight, BitVec.getLsbD_allOnes]
          have : decide (64 * kWords N - N + j % 64 < 64) = decide (j < N) := by
            rw [decide_eq_decide]
            unfold kWords at *
            omega
          rw [this]
          simp [hl, Bool.and_comm]
        · have : (ws.map (~~~·))[j / 64]? = none := by simp; omega
          rw [this]
          have : ¬ j < N := by unfold kWords at *; omega
          simp [this]
      · simp only [if_neg hj, Option.map_eq_map]
        simp only [Option.map_id_fun', id_eq]
        rw [hmj]
        have : decide (j / 64 < ws.length) = decide (j < N) := by
          rw [decide_eq_decide]
          unfold kWords at *
          omega
        rw [this]
    · rw [if_neg hd, hmap]
      have : decide (j / 64 < ws.length) = decide (j < N) := by
        rw [decide_eq_decide]
        unfold kWords at *
        omega
      rw [this]
  refine ⟨⟨?_, ?_⟩, ?_⟩
  · unfold complement; split <;> simp [hlen]
  · intro j hj; rw [key]; simp; omega
  · intro j hj; rw [key]; simp [hj]

end Verif.Bitmap
