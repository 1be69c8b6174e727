import Verif.Bitmap.Model
/-! Helper lemmas: what the word operations do to single bits. -/
namespace Verif.Bitmap

/-- The abstract bit number `j`. -/
def bitAt (ws : List Word) (j : Nat) : Bool :=
  match ws[j / 64]? with
  | some w => w.getLsbD (j % 64)
  | none => false

/-- A well-formed bitmap of `N` bits: the right number of words, dead bits zero. -/
structure WF (N : Nat) (ws : List Word) : Prop where
  len : ws.length = kWords N
  dead : ∀ j, N ≤ j → bitAt ws j = false

theorem WF.word {N : Nat} {ws : List Word} (h : WF N ws) {i : Nat} (hi : i < N) :
    ∃ w, ws[i / 64]? = some w := by
  have := h.len
  unfold kWords at this
  exact ⟨ws[i / 64]'(by omega), by simp⟩

theorem bitAt_of_word {ws : List Word} {i : Nat} {w : Word} (h : ws[i]? = some w) {k : Nat}
    (hk : k < 64) : bitAt ws (i * 64 + k) = w.getLsbD k := by
  unfold bitAt
  rw [show (i * 64 + k) / 64 = i by omega, show (i * 64 + k) % 64 = k by omega, h]

theorem bitAt_set {ws : List Word} {i : Nat} {w' : Word} (hi : i < ws.length) (j : Nat) :
    bitAt (ws.set i w') j = if j / 64 = i then w'.getLsbD (j % 64) else bitAt ws j := by
  unfold bitAt
  by_cases h : j / 64 = i
  · subst h; simp [hi]
  · rw [List.getElem?_set_ne (by omega), if_neg h]

theorem bitAt_ext {a b : List Word} (hl : a.length = b.length) (h : ∀ j, bitAt a j = bitAt b j) :
    a = b := by
  apply List.ext_getElem hl
  intro i h1 h2
  apply BitVec.eq_of_getLsbD_eq
  intro k hk
  have := h (i * 64 + k)
  rwa [bitAt_of_word (List.getElem?_eq_getElem h1) hk,
    bitAt_of_word (List.getElem?_eq_getElem h2) hk] at this

theorem bitAt_empty (N j : Nat) : bitAt (empty N) j = false := by
  unfold bitAt empty
  split
  · rename_i w h
    have := List.mem_of_getElem? h
    rw [List.mem_replicate] at this
    rw [this.2]; simp
  · rfl

theorem wf_empty (N : Nat) : WF N (empty N) := ⟨by simp [empty], fun j _ => bitAt_empty N j⟩

theorem getLsbD_rangeMask {frm to : Nat} (h1 : frm < to) (h2 : to ≤ 64) (k : Nat) (hk : k < 64) :
    (rangeMask frm to).getLsbD k = decide (frm ≤ k ∧ k < to) := by
  unfold rangeMask
  rw [BitVec.getLsbD_shiftLeft, BitVec.getLsbD_ushiftRight, BitVec.getLsbD_allOnes]
  simp only [hk, decide_true, Bool.true_and]
  rw [Bool.eq_iff_iff]
  simp
  omega

theorem getLsbD_one_shift (i k : Nat) (hk : k < 64) :
    (1#64 <<< i).getLsbD k = decide (k = i) := by
  rw [BitVec.getLsbD_shiftLeft]
  simp only [hk, decide_true, Bool.true_and, BitVec.getLsbD_one]
  rw [Bool.eq_iff_iff]
  simp
  omega

theorem and_one_shift_ne (w : Word) (i : Nat) (hi : i < 64) :
    (w &&& (1#64 <<< i) != 0#64) = w.getLsbD i := by
  rw [Bool.eq_iff_iff, bne_iff_ne]
  constructor
  · intro h
    apply Classical.byContradiction
    intro hn
    apply h
    apply BitVec.eq_of_getLsbD_eq
    intro k hk
    rw [BitVec.getLsbD_and, getLsbD_one_shift i k hk]
    by_cases hki : k = i
    · subst hki; simp [hn]
    · simp [hki]
  · intro h h0
    have : (w &&& (1#64 <<< i)).getLsbD i = true := by
      rw [BitVec.getLsbD_and, getLsbD_one_shift i i hi, h]; simp
    rw [h0] at this
    simp at this

theorem setWordBits_spec (v : Bool) {ws : List Word} {i frm to : Nat} (hi : i < ws.length)
    (h1 : frm < to) (h2 : to ≤ 64) :
    ∃ ws', setWordBits v ws i frm to = some ws' ∧ ws'.length = ws.length ∧
      ∀ j, bitAt ws' j = if i * 64 + frm ≤ j ∧ j < i * 64 + to then v else bitAt ws j := by
  unfold setWordBits
  rw [if_pos ⟨h1, h2⟩, List.getElem?_eq_getElem hi]
  refine ⟨_, rfl, by simp, ?_⟩
  intro j
  rw [bitAt_set hi]
  by_cases hj : j / 64 = i
  · rw [if_pos hj]
    have hb : bitAt ws j = ws[i].getLsbD (j % 64) := by
      unfold bitAt; rw [hj, List.getElem?_eq_getElem hi]
    have hm := getLsbD_rangeMask h1 h2 (j % 64) (by omega)
    cases v
    · simp only [Bool.false_eq_true, if_false, BitVec.getLsbD_and, BitVec.getLsbD_not, hm]
      rw [hb]
      by_cases hr : frm ≤ j % 64 ∧ j % 64 < to
      · rw [if_pos (by omega)]; simp [hr]
      · rw [if_neg (by omega)]; simp [hr]; intro _; omega
    · simp only [if_true, BitVec.getLsbD_or, hm]
      rw [hb]
      by_cases hr : frm ≤ j % 64 ∧ j % 64 < to
      · rw [if_pos (by omega)]; simp [hr]
      · rw [if_neg (by omega)]; simp [hr]
  · rw [if_neg hj, if_neg (by omega)]

theorem setRangeRest_spec (v : Bool) : ∀ (n : Nat) (ws : List Word) (word : Nat),
    word * 64 + 64 + n ≤ ws.length * 64 →
    ∃ ws', setRangeRest v ws word n = some ws' ∧ ws'.length = ws.length ∧
      ∀ j, bitAt ws' j = if word * 64 + 64 ≤ j ∧ j < word * 64 + 64 + n then v
        else bitAt ws j := by
  intro n
  induction n using Nat.strongRecOn with
  | ind n ih =>
    intro ws word hn
    rw [setRangeRest]
    by_cases h0 : n > 0
    · rw [if_pos h0]
      have hk : (min n 64 = n ∧ n ≤ 64) ∨ (min n 64 = 64 ∧ 64 ≤ n) := by omega
      generalize min n 64 = k at hk
      obtain ⟨ws1, a1, a2, a3⟩ := setWordBits_spec v (ws := ws) (i := word + 1) (frm := 0)
        (to := k) (by omega) (by omega) (by omega)
      rw [a1]
      obtain ⟨ws2, b1, b2, b3⟩ := ih (n - k) (by omega) ws1 (word + 1) (by omega)
      refine ⟨ws2, b1, by omega, ?_⟩
      intro j
      rw [b3, a3]
      split
      · rw [if_pos (by omega)]
      · split
        · rw [if_pos (by omega)]
        · rw [if_neg (by omega)]
    · rw [if_neg h0]
      exact ⟨ws, rfl, rfl, fun j => by rw [if_neg (by omega)]⟩

/-- `SetRange`/`ClearRange` change exactly the bits of the range. -/
theorem setRangeValue_spec (v : Bool) {N : Nat} {ws : List Word} (h : WF N ws) {index n : Nat}
    (hn : 0 < n) (hb : index + n ≤ N) :
    ∃ ws', setRangeValue v N ws index n = some ws' ∧ WF N ws' ∧
      ∀ j, bitAt ws' j = if index ≤ j ∧ j < index + n then v else bitAt ws j := by
  have hlen := h.len
  unfold kWords at hlen
  unfold setRangeValue
  rw [if_pos hb]
  obtain ⟨ws1, a1, a2, a3⟩ := setWordBits_spec v (ws := ws) (i := index / 64) (frm := index % 64)
    (to := min (index % 64 + n) 64) (by omega) (by omega) (by omega)
  rw [a1]
  obtain ⟨ws2, b1, b2, b3⟩ := setRangeRest_spec v (n - (min (index % 64 + n) 64 - index % 64)) ws1
    (index / 64)
    (by omega)
  have hbits : ∀ j, bitAt ws2 j = if index ≤ j ∧ j < index + n then v else bitAt ws j := by
    intro j
    rw [b3, a3]
    split
    · rw [if_pos (by omega)]
    · split
      · rw [if_pos (by omega)]
      · rw [if_neg (by omega)]
  refine ⟨ws2, b1, ⟨by rw [b2, a2]; exact h.len, ?_⟩, hbits⟩
  intro j hj
  rw [hbits, if_neg (by omega)]
  exact h.dead j hj

theorem ctz_spec {w : Word} (h : w ≠ 0#64) :
    ctz w < 64 ∧ w.getLsbD (ctz w) = true ∧ ∀ k, k < ctz w → w.getLsbD k = false := by
  unfold ctz
  split
  · rename_i k hk
    rw [List.find?_range_eq_some] at hk
    obtain ⟨h1, h2, h3⟩ := hk
    refine ⟨by simpa using h2, h1, ?_⟩
    intro k hk
    simpa using h3 k hk
  · rename_i hk
    exfalso
    apply h
    apply BitVec.eq_of_getLsbD_eq
    intro k hk'
    rw [List.find?_eq_none] at hk
    simpa using hk k (by simpa using hk')

theorem bitWidth_spec {w : Word} (h : w ≠ 0#64) :
    0 < bitWidth w ∧ bitWidth w ≤ 64 ∧ w.getLsbD (bitWidth w - 1) = true ∧
      ∀ k, bitWidth w ≤ k → w.getLsbD k = false := by
  unfold bitWidth
  split
  · rename_i k hk
    rw [List.find?_eq_some_iff_getElem] at hk
    obtain ⟨h1, i, hi, h2, h3⟩ := hk
    simp at hi h2
    refine ⟨by omega, by omega, by simpa using h1, ?_⟩
    intro k' hk'
    by_cases hlt : k' < 64
    · have := h3 (63 - k') (by omega)
      simp at this
      rwa [show 63 - (63 - k') = k' by omega] at this
    · exact BitVec.getLsbD_of_ge _ _ (by omega)
  · rename_i hk
    exfalso
    apply h
    apply BitVec.eq_of_getLsbD_eq
    intro k hk'
    rw [List.find?_eq_none] at hk
    simpa using hk k (by simpa using hk')

theorem pick_getLsbD (goal : Bool) (w : Word) {k : Nat} (hk : k < 64) :
    (pick goal w).getLsbD k = (w.getLsbD k == goal) := by
  unfold pick
  cases goal
  · simp only [Bool.false_eq_true, if_false, BitVec.getLsbD_not, hk, decide_true, Bool.true_and]
    cases w.getLsbD k <;> rfl
  · simp

theorem findLoop_spec (goal : Bool) {N : Nat} {ws : List Word} (h : WF N ws) :
    ∀ (m word : Nat) (here : Word) (index : Nat), kWords N - word ≤ m → word < kWords N →
      index < N → index < word * 64 + 64 →
      (∀ k, k < 64 → here.getLsbD k = (decide (index ≤ word * 64 + k) &&
        (bitAt ws (word * 64 + k) == goal))) →
      (∀ j, index ≤ j → j < word * 64 → bitAt ws j ≠ goal) →
      ∃ r, findLoop goal N ws word here = some r ∧ index ≤ r ∧ r ≤ N ∧
        (∀ j, index ≤ j → j < r → bitAt ws j ≠ goal) ∧ (r < N → bitAt ws r = goal) := by
  intro m
  induction m with
  | zero => intro word here index hm hw; omega
  | succ m ih =>
    intro word here index hm hw hidx hiw hhere hbefore
    rw [findLoop]
    by_cases h0 : here = 0#64
    · rw [if_pos h0]
      have hnone : ∀ j, index ≤ j → j < word * 64 + 64 → bitAt ws j ≠ goal := by
        intro j h1 h2
        by_cases hj : j < word * 64
        · exact hbefore j h1 hj
        · have := hhere (j - word * 64) (by omega)
          rw [h0, show word * 64 + (j - word * 64) = j by omega] at this
          simp [h1] at this
          exact this
      by_cases hlast : word + 1 ≥ kWords N
      · rw [if_pos hlast]
        refine ⟨N, rfl, by omega, Nat.le_refl _, ?_, by omega⟩
        intro j h1 h2
        refine hnone j h1 ?_
        unfold kWords at hlast
        omega
      · rw [if_neg hlast]
        have hw1 : word + 1 < ws.length := by rw [h.len]; omega
        rw [List.getElem?_eq_getElem hw1]
        refine ih (word + 1) _ index (by omega) (by omega) hidx (by omega) ?_
          (fun j h1 h2 => hnone j h1 (by omega))
        intro k hk
        rw [pick_getLsbD _ _ hk, ← bitAt_of_word (List.getElem?_eq_getElem hw1) hk]
        have hge : index ≤ (word + 1) * 64 + k := by omega
        simp [hge]
    · rw [if_neg h0]
      obtain ⟨t1, t2, t3⟩ := ctz_spec h0
      have ht := hhere (ctz here) t1
      rw [t2] at ht
      simp at ht
      obtain ⟨ht1, ht2⟩ := ht
      have hmin : ∀ j, index ≤ j → j < ctz here + word * 64 → bitAt ws j ≠ goal := by
        intro j h1 h2
        by_cases hj : j < word * 64
        · exact hbefore j h1 hj
        · have := hhere (j - word * 64) (by omega)
          rw [t3 _ (by omega), show word * 64 + (j - word * 64) = j by omega] at this
          simp [h1] at this
          exact this
      rw [Nat.add_comm] at ht1 ht2
      have hret : ctz here + word * 64 < 64 * kWords N := by
        have : (word + 1) * 64 ≤ kWords N * 64 := Nat.mul_le_mul_right _ hw
        omega
      have hgoal : goal = true → ctz here + word * 64 < N := by
        intro hg
        apply Classical.byContradiction
        intro hn
        have := h.dead (ctz here + word * 64) (by omega)
        rw [ht2, hg] at this
        simp at this
      generalize ctz here + word * 64 = ret at *
      by_cases hd : N % 64 ≠ 0
      · rw [if_pos hd]
        cases goal
        · simp only [Bool.false_eq_true, if_false]
          by_cases hgt : ret > N
          · rw [if_pos hgt]
            exact ⟨N, rfl, by omega, Nat.le_refl _, fun j h1 h2 => hmin j h1 (by omega), by omega⟩
          · rw [if_neg hgt]
            exact ⟨ret, rfl, by omega, by omega, hmin, fun _ => ht2⟩
        · simp only [if_true]
          have := hgoal rfl
          rw [if_pos this]
          exact ⟨ret, rfl, by omega, by omega, hmin, fun _ => ht2⟩
      · rw [if_neg hd]
        refine ⟨ret, rfl, by omega, ?_, hmin, fun _ => ht2⟩
        unfold kWords at hret
        omega

/-- `FindSet`/`FindClear` return the first matching bit at or after `index`, or `N`. -/
theorem findValue_spec (goal : Bool) {N : Nat} {ws : List Word} (h : WF N ws) {index : Nat}
    (hi : index < N) :
    ∃ r, findValue goal N ws index = some r ∧ index ≤ r ∧ r ≤ N ∧
      (∀ j, index ≤ j → j < r → bitAt ws j ≠ goal) ∧ (r < N → bitAt ws r = goal) := by
  unfold findValue
  obtain ⟨w, hw⟩ := h.word hi
  rw [if_pos hi, hw]
  have hwl : index / 64 < kWords N := by unfold kWords; omega
  refine findLoop_spec goal h (kWords N) (index / 64) _ index (by omega) hwl hi (by omega) ?_
    (by intro j h1 h2; omega)
  intro k hk
  rw [BitVec.getLsbD_and, pick_getLsbD _ _ hk, BitVec.getLsbD_shiftLeft, BitVec.getLsbD_allOnes,
    bitAt_of_word hw hk]
  have : (decide (k < 64) && !decide (k < index % 64) && decide (k - index % 64 < 64)) =
      decide (index ≤ index / 64 * 64 + k) := by
    rw [Bool.eq_iff_iff]; simp; omega
  rw [this, Bool.and_comm]

theorem findBackLoop_spec (goal : Bool) {N : Nat} {ws : List Word} (h : WF N ws) :
    ∀ (word : Nat) (here : Word) (index : Nat), word < kWords N → index < N →
      word * 64 ≤ index →
      (∀ k, k < 64 → here.getLsbD k = (decide (word * 64 + k ≤ index) &&
        (bitAt ws (word * 64 + k) == goal))) →
      (∀ j, word * 64 + 64 ≤ j → j ≤ index → bitAt ws j ≠ goal) →
      ∃ r : Int, findBackLoop goal ws word here = some r ∧ -1 ≤ r ∧ r ≤ index ∧
        (∀ j : Nat, r < j → j ≤ index → bitAt ws j ≠ goal) ∧
        (0 ≤ r → bitAt ws r.toNat = goal) := by
  intro word
  induction word with
  | zero =>
    intro here index hw hidx hwi hhere hafter
    unfold findBackLoop
    by_cases h0 : here = 0#64
    · rw [if_pos h0]
      refine ⟨-1, rfl, by omega, by omega, ?_, by omega⟩
      intro j _ h2
      by_cases hj : 64 ≤ j
      · exact hafter j (by omega) h2
      · have := hhere j (by omega)
        rw [h0] at this
        simp [h2] at this
        exact this
    · rw [if_neg h0]
      obtain ⟨t0, t1, t2, t3⟩ := bitWidth_spec h0
      have ht := hhere (bitWidth here - 1) (by omega)
      rw [t2] at ht
      simp at ht
      refine ⟨_, rfl, by omega, by omega, ?_, ?_⟩
      · intro j h1 h2
        by_cases hj : 64 ≤ j
        · exact hafter j (by omega) h2
        · have := hhere j (by omega)
          rw [t3 _ (by omega)] at this
          simp [h2] at this
          exact this
      · intro _; simpa using ht.2
  | succ word ih =>
    intro here index hw hidx hwi hhere hafter
    unfold findBackLoop
    by_cases h0 : here = 0#64
    · rw [if_pos h0]
      have hw1 : word < ws.length := by rw [h.len]; omega
      rw [List.getElem?_eq_getElem hw1]
      have hnone : ∀ j, (word + 1) * 64 ≤ j → j ≤ index → bitAt ws j ≠ goal := by
        intro j h1 h2
        by_cases hj : (word + 1) * 64 + 64 ≤ j
        · exact hafter j hj h2
        · have := hhere (j - (word + 1) * 64) (by omega)
          rw [h0, show (word + 1) * 64 + (j - (word + 1) * 64) = j by omega] at this
          simp [h2] at this
          exact this
      refine ih _ index (by omega) hidx (by omega) ?_
        (fun j h1 h2 => hnone j (by omega) h2)
      intro k hk
      rw [pick_getLsbD _ _ hk, ← bitAt_of_word (List.getElem?_eq_getElem hw1) hk]
      have hge : word * 64 + k ≤ index := by omega
      simp [hge]
    · rw [if_neg h0]
      obtain ⟨t0, t1, t2, t3⟩ := bitWidth_spec h0
      have ht := hhere (bitWidth here - 1) (by omega)
      rw [t2] at ht
      simp at ht
      refine ⟨_, rfl, by omega, by omega, ?_, ?_⟩
      · intro j h1 h2
        by_cases hj : (word + 1) * 64 + 64 ≤ j
        · exact hafter j (by omega) h2
        · have := hhere (j - (word + 1) * 64) (by omega)
          rw [t3 _ (by omega), show (word + 1) * 64 + (j - (word + 1) * 64) = j by omega] at this
          simp [h2] at this
          exact this
      · intro _
        rw [Int.toNat_natCast, Nat.add_comm]; exact ht.2

theorem two_shift_sub_one (i k : Nat) (hi : i < 64) (hk : k < 64) :
    ((2#64 <<< i) - 1#64).getLsbD k = decide (k ≤ i) := by
  have : ∀ i, i < 64 → ∀ k, k < 64 → ((2#64 <<< i) - 1#64).getLsbD k = decide (k ≤ i) := by
    decide +kernel
  exact this i hi k hk

/-- `FindSetBackwards`/`FindClearBackwards` return the last matching bit at or before `index`, or
-1. -/
theorem findValueBackwards_spec (goal : Bool) {N : Nat} {ws : List Word} (h : WF N ws)
    {index : Nat} (hi : index < N) :
    ∃ r : Int, findValueBackwards goal N ws index = some r ∧ -1 ≤ r ∧ r ≤ index ∧
      (∀ j : Nat, r < j → j ≤ index → bitAt ws j ≠ goal) ∧
      (0 ≤ r → bitAt ws r.toNat = goal) := by
  unfold findValueBackwards
  obtain ⟨w, hw⟩ := h.word hi
  rw [if_pos hi, hw]
  have hwl : index / 64 < kWords N := by unfold kWords; omega
  refine findBackLoop_spec goal h (index / 64) _ index hwl hi (by omega) ?_
    (by intro j h1 h2; omega)
  intro k hk
  rw [BitVec.getLsbD_and, pick_getLsbD _ _ hk, two_shift_sub_one _ _ (by omega) hk,
    bitAt_of_word hw hk]
  have : decide (k ≤ index % 64) = decide (index / 64 * 64 + k ≤ index) := by
    rw [Bool.eq_iff_iff]; simp; omega
  rw [this, Bool.and_comm]

/-- `NextFreeRange` finds the first maximal clear run at or after `start`. -/
theorem nextFreeRange_spec {N : Nat} {ws : List Word} (h : WF N ws) (start : Nat) :
    (∃ i len, nextFreeRange N ws start = some (some (i, len)) ∧ start ≤ i ∧ 0 < len ∧ i + len ≤ N ∧
      (∀ j, start ≤ j → j < i → bitAt ws j = true) ∧
      (∀ j, i ≤ j → j < i + len → bitAt ws j = false) ∧
      (i + len < N → bitAt ws (i + len) = true)) ∨
    (nextFreeRange N ws start = some none ∧ ∀ j, start ≤ j → j < N → bitAt ws j = true) := by
  unfold nextFreeRange
  by_cases hs : start ≥ N
  · rw [if_pos hs]; exact Or.inr ⟨rfl, by intro j h1 h2; omega⟩
  · rw [if_neg hs]
    obtain ⟨i, a1, a2, a3, a4, a5⟩ := findValue_spec false h (index := start) (by omega)
    have a1' : findClear N ws start = some i := a1
    simp only [a1']
    by_cases hiN : i = N
    · rw [if_pos hiN]
      refine Or.inr ⟨rfl, ?_⟩
      intro j h1 h2
      have := a4 j h1 (by omega)
      simpa using this
    · rw [if_neg hiN]
      obtain ⟨j, b1, b2, b3, b4, b5⟩ := findValue_spec true h (index := i) (by omega)
      have b1' : findSet N ws i = some j := b1
      simp only [b1']
      have hij : j ≠ i := by
        intro hji; subst hji
        have h1 := a5 (by omega)
        have h2 := b5 (by omega)
        rw [h1] at h2; simp at h2
      refine Or.inl ⟨i, j - i, rfl, a2, by omega, by omega, ?_, ?_, ?_⟩
      · intro j' h1 h2; simpa using a4 j' h1 h2
      · intro j' h1 h2; simpa using b4 j' h1 (by omega)
      · intro hlt; rw [show i + (j - i) = j by omega]; exact b5 (by omega)

end Verif.Bitmap
