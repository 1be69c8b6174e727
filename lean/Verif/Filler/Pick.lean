import Verif.Filler.Lemmas
/-! Choosing the hugepage to allocate from. -/
namespace Verif.Filler
open Verif.Bitmap Verif.RangeTracker Verif.PageTracker Verif.HintedLists

variable {N : Nat} {mode : Bool}

/-- `takeLeast` finds the first tracker of the least adequate list, or nothing if all those lists are empty. -/
theorem takeLeast_spec {s : F} {L : List Nat} (h : LI N mode s.tr s.hl s.nUsedRel s.nUsedPart L) {k : LK} {li : Nat}
    (hli : li < nLists N k) :
    (∃ id i h', takeLeast N s k li = some ({ s with hl := upd s.hl k h' }, some id) ∧ id ∈ L ∧
      place N mode (s.tr id) = (k, i) ∧ li ≤ i ∧ Inv (nLists N k) h' ∧
      (∀ j x, x ∈ h'.lists j ↔ x ∈ (s.hl k).lists j ∧ x ≠ id) ∧
      (∀ id' ∈ L, ∀ j, place N mode (s.tr id') = (k, j) → li ≤ j → i ≤ j)) ∨
    (takeLeast N s k li = some (s, none) ∧ ∀ id' ∈ L, ∀ j, place N mode (s.tr id') = (k, j) → j < li) := by
  unfold takeLeast
  rcases getLeast_spec (h.inv k) hli with ⟨i, id, l, h', e, hl, hL, h1, _, h3⟩ | ⟨e, hl⟩
  · left
    rw [e]
    have hin : id ∈ (s.hl k).lists i := by rw [hL]; simp
    have hm := (h.mem k i id).1 hin
    refine ⟨id, i, h', rfl, hm.1, hm.2, hl.1, h3, ?_, ?_⟩
    · intro j x
      rw [h1]; unfold setList
      split
      · next hj =>
        subst hj
        have hnd := (h.inv k).nodup j
        rw [hL] at hnd ⊢
        rw [List.nodup_cons] at hnd
        rw [List.mem_cons]
        constructor
        · intro a; exact ⟨Or.inr a, by rintro rfl; exact hnd.1 a⟩
        · rintro ⟨rfl | a, b⟩
          · exact absurd rfl b
          · exact a
      · next hj =>
        constructor
        · intro a
          refine ⟨a, ?_⟩
          rintro rfl
          exact (h.inv k).disj i j (Ne.symm hj) x hin a
        · rintro ⟨a, _⟩; exact a
    · intro id' hid' j hj hlj
      have hin' := (h.mem k j id').2 ⟨hid', hj⟩
      apply Classical.byContradiction
      intro hc
      have := hl.2.2.2 j hlj (by omega)
      rw [this] at hin'; simp at hin'
  · right
    rw [e]
    refine ⟨?_, ?_⟩
    · simp only [upd_self]
    · intro id' hid' j hj
      apply Classical.byContradiction
      intro hc
      have hin' := (h.mem k j id').2 ⟨hid', hj⟩
      rw [hl j (by omega)] at hin'; simp at hin'

/-- What `pick` relies on, for every listed tracker. -/
structure T (N : Nat) (t : PT) : Prop extends V N t where
  fit : t.dense = true → (t.free.nallocs < N ↔ 1 ≤ t.free.longestFree)
  don : t.donated = true → t.dense = false ∧ t.relCount = 0

/-- The result of trying the arrays `ks` in turn. -/
def PickPost (N : Nat) (mode : Bool) (s : F) (L : List Nat) (n : Nat) (dense : Bool) (ks : List LK) :
    F × Option (Nat × Bool) → Prop
  | (s1, none) => s1 = s ∧ ∀ id ∈ L, (place N mode (s.tr id)).1 ∈ ks → (s.tr id).free.longestFree < n
  | (s1, some (id, w)) =>
    (∃ hl nr np, s1 = { s with hl := hl, nUsedRel := nr, nUsedPart := np } ∧ LI N mode s.tr hl nr np (L.erase id)) ∧
    id ∈ L ∧ n ≤ (s.tr id).free.longestFree ∧ (s.tr id).dense = dense ∧
    (w = true ↔ (place N mode (s.tr id)).1 = .partialRel dense ∨ (place N mode (s.tr id)).1 = .released dense) ∧
    ∃ pre post, ks = pre ++ (place N mode (s.tr id)).1 :: post ∧
      (∀ id' ∈ L, (place N mode (s.tr id')).1 ∈ pre → (s.tr id').free.longestFree < n) ∧
      (∀ id' ∈ L, (place N mode (s.tr id')).1 = (place N mode (s.tr id)).1 → n ≤ (s.tr id').free.longestFree →
        (place N mode (s.tr id)).2 ≤ (place N mode (s.tr id')).2)

theorem PickPost.skip {s : F} {L : List Nat} {n : Nat} {dense : Bool} {ks : List LK} {r : F × Option (Nat × Bool)}
    {k : LK} (h : PickPost N mode s L n dense ks r)
    (hk : ∀ id ∈ L, (place N mode (s.tr id)).1 = k → (s.tr id).free.longestFree < n) :
    PickPost N mode s L n dense (k :: ks) r := by
  match r, h with
  | (s1, none), h =>
    refine ⟨h.1, ?_⟩
    intro id hid hm
    rcases List.mem_cons.1 hm with e | e
    · exact hk id hid e
    · exact h.2 id hid e
  | (s1, some (id, w)), h =>
    obtain ⟨h1, h2, h3, h4, h5, pre, post, e, h6, h7⟩ := h
    refine ⟨h1, h2, h3, h4, h5, k :: pre, post, by rw [e]; rfl, ?_, h7⟩
    intro id' hid' hm
    rcases List.mem_cons.1 hm with e | e
    · exact hk id' hid' e
    · exact h6 id' hid' e

/-- The least index that can serve a request. -/
def leastIdx (n : Nat) (dense : Bool) : Nat := if dense then 8 else n * 8

theorem idx_fits {t : PT} (h : T N t) {n : Nat} {dense : Bool} (hd : t.dense = dense) (hn : dense = true → n = 1) :
    leastIdx n dense ≤ idxOf N t ↔ n ≤ t.free.longestFree := by
  have hc := chunkIdx_lt t.free.nallocs
  unfold leastIdx idxOf
  subst hd
  cases hdd : t.dense with
  | true =>
    have hf := h.fit hdd
    have := h.le
    rw [hn hdd, ← hf]
    simp only [if_true]
    omega
  | false =>
    simp only [Bool.false_eq_true, if_false]
    omega

theorem place_donated_iff (t : PT) : (place N mode t).1 = .donated ↔ t.donated = true := by
  unfold place
  split
  · next h => simp [h]
  · next h =>
    have := kindOf_ne_donated (N := N) (mode := mode) t
    simp [h, this]

theorem place_nd {t : PT} {k : LK} {i : Nat} (h : place N mode t = (k, i)) (hk : k ≠ .donated) :
    t.donated = false ∧ kindOf N mode t = k ∧ idxOf N t = i := by
  unfold place at h
  cases hd : t.donated with
  | true => rw [hd] at h; simp at h; exact absurd h.1.symm hk
  | false => rw [hd] at h; simp at h; exact ⟨rfl, h.1, h.2⟩

theorem kind_dense {t : PT} {d : Bool} (h : kindOf N mode t = .regular d ∨ kindOf N mode t = .partialRel d ∨
    kindOf N mode t = .released d) : t.dense = d := by
  unfold kindOf at h
  split at h
  · simpa using h
  · split at h <;> simpa using h

/-- Trying one array (not the donated one). -/
theorem take_nd {s : F} {L : List Nat} (h : LI N mode s.tr s.hl s.nUsedRel s.nUsedPart L)
    (hT : ∀ id ∈ L, T N (s.tr id)) {n : Nat} {dense : Bool} (hn : dense = true → n = 1) (hlt : n < N) (hN : 2 ≤ N)
    {k : LK} (hk : k = .regular dense ∨ k = .partialRel dense ∨ k = .released dense) :
    (∃ id i h', takeLeast N s k (leastIdx n dense) = some ({ s with hl := upd s.hl k h' }, some id) ∧ id ∈ L ∧
      place N mode (s.tr id) = (k, i) ∧ (s.tr id).donated = false ∧ (s.tr id).dense = dense ∧
      n ≤ (s.tr id).free.longestFree ∧ Inv (nLists N k) h' ∧
      (∀ j x, x ∈ h'.lists j ↔ x ∈ (s.hl k).lists j ∧ x ≠ id) ∧
      (∀ id' ∈ L, (place N mode (s.tr id')).1 = (place N mode (s.tr id)).1 → n ≤ (s.tr id').free.longestFree →
        (place N mode (s.tr id)).2 ≤ (place N mode (s.tr id')).2)) ∨
    (takeLeast N s k (leastIdx n dense) = some (s, none) ∧
      ∀ id' ∈ L, (place N mode (s.tr id')).1 = k → (s.tr id').free.longestFree < n) := by
  have hkd : k ≠ .donated := by rcases hk with rfl | rfl | rfl <;> simp
  have hnl : nLists N k = N * 8 := by rcases hk with rfl | rfl | rfl <;> rfl
  have hli : leastIdx n dense < nLists N k := by
    rw [hnl]; unfold leastIdx; split <;> omega
  have hdn : ∀ id ∈ L, ∀ j, place N mode (s.tr id) = (k, j) → (s.tr id).dense = dense ∧ (s.tr id).donated = false ∧
      (leastIdx n dense ≤ j ↔ n ≤ (s.tr id).free.longestFree) := by
    intro id hid j hj
    obtain ⟨a, b, c⟩ := place_nd hj hkd
    have hd : (s.tr id).dense = dense := kind_dense (by rw [b]; rcases hk with rfl | rfl | rfl <;> simp)
    exact ⟨hd, a, by rw [← c]; exact idx_fits (hT id hid) hd hn⟩
  rcases takeLeast_spec h hli with ⟨id, i, h', e, h1, h2, h3, h4, h5, h6⟩ | ⟨e, h1⟩
  · left
    obtain ⟨d1, d2, d3⟩ := hdn id h1 i h2
    refine ⟨id, i, h', e, h1, h2, d2, d1, d3.1 h3, h4, h5, ?_⟩
    intro id' hid' hkk hf
    rw [h2] at hkk ⊢; simp only [] at hkk ⊢
    have hp : place N mode (s.tr id') = (k, (place N mode (s.tr id')).2) := by rw [← hkk]
    exact h6 id' hid' _ hp ((hdn id' hid' _ hp).2.2.2 hf)
  · right
    refine ⟨e, ?_⟩
    intro id' hid' hkk
    have hp : place N mode (s.tr id') = (k, (place N mode (s.tr id')).2) := by rw [← hkk]
    have h2 := h1 id' hid' _ hp
    have h3 := (hdn id' hid' _ hp).2.2
    omega

theorem usedAt_le {tr : Nat → PT} {L : List Nat} {id : Nat} (hm : id ∈ L) {k : LK}
    (hk : (place N mode (tr id)).1 = k) : (tr id).free.nused ≤ sumOn (usedAt N mode tr k) L := by
  have := sumOn_mem_le (f := usedAt N mode tr k) hm
  have e : usedAt N mode tr k id = (tr id).free.nused := by unfold usedAt; rw [if_pos hk]
  omega

theorem pickReleased_spec {s : F} {L : List Nat} (h : LI N mode s.tr s.hl s.nUsedRel s.nUsedPart L)
    (hT : ∀ id ∈ L, T N (s.tr id)) {n : Nat} {dense : Bool} (hn : dense = true → n = 1) (hlt : n < N) (hN : 2 ≤ N) :
    ∃ r, pickReleased N s dense (leastIdx n dense) = some r ∧ PickPost N mode s L n dense [.released dense] r := by
  unfold pickReleased
  rcases take_nd h hT hn hlt hN (k := .released dense) (by simp) with ⟨id, i, h', e, h1, h2, h3, h4, h5, h6, h7, h8⟩ | ⟨e, h1⟩
  · rw [e]
    simp only []
    rw [h3]
    simp only [Bool.false_eq_true, if_false]
    have hle : (s.tr id).free.nused ≤ s.nUsedRel dense := by rw [h.rel]; exact usedAt_le h1 (by rw [h2])
    rw [subCount_le hle]
    refine ⟨_, rfl, ⟨_, _, _, rfl, h.remove h1 (by rw [h2]) h6 h7 ?_ (fun d => by simp)⟩, h1, h5, h4, by rw [h2]; simp,
      [], [], by rw [h2]; rfl, by simp, h8⟩
    intro d
    by_cases hd : d = dense
    · subst hd; simp; omega
    · rw [upd_ne _ _ hd, if_neg (by simp; exact fun e => hd e.symm)]; omega
  · rw [e]
    exact ⟨_, rfl, rfl, fun id hid hm => h1 id hid (by simpa using hm)⟩

theorem pickPartial_spec {s : F} {L : List Nat} (h : LI N mode s.tr s.hl s.nUsedRel s.nUsedPart L)
    (hT : ∀ id ∈ L, T N (s.tr id)) {n : Nat} {dense : Bool} (hn : dense = true → n = 1) (hlt : n < N) (hN : 2 ≤ N) :
    ∃ r, pickPartial N s dense (leastIdx n dense) = some r ∧
      PickPost N mode s L n dense [.partialRel dense, .released dense] r := by
  unfold pickPartial
  rcases take_nd h hT hn hlt hN (k := .partialRel dense) (by simp) with ⟨id, i, h', e, h1, h2, h3, h4, h5, h6, h7, h8⟩ | ⟨e, h1⟩
  · rw [e]
    simp only []
    rw [h3]
    simp only [Bool.false_eq_true, if_false]
    have hle : (s.tr id).free.nused ≤ s.nUsedPart dense := by rw [h.part]; exact usedAt_le h1 (by rw [h2])
    rw [subCount_le hle]
    refine ⟨_, rfl, ⟨_, _, _, rfl, h.remove h1 (by rw [h2]) h6 h7 (fun d => by simp) ?_⟩, h1, h5, h4, by rw [h2]; simp,
      [], _, by rw [h2]; rfl, by simp, h8⟩
    intro d
    by_cases hd : d = dense
    · subst hd; simp; omega
    · rw [upd_ne _ _ hd, if_neg (by simp; exact fun e => hd e.symm)]; omega
  · rw [e]
    simp only []
    obtain ⟨r, er, hr⟩ := pickReleased_spec h hT hn hlt hN
    exact ⟨r, er, hr.skip h1⟩

theorem pickDonated_spec {s : F} {L : List Nat} (h : LI N mode s.tr s.hl s.nUsedRel s.nUsedPart L)
    (hT : ∀ id ∈ L, T N (s.tr id)) {n : Nat} {dense : Bool} (hn : dense = true → n = 1) (hlt : n < N) (hN : 2 ≤ N) :
    ∃ r, pickDonated N s n dense (leastIdx n dense) = some r ∧
      PickPost N mode s L n dense
        ((if dense then [] else [.donated]) ++ [.partialRel dense, .released dense]) r := by
  unfold pickDonated
  cases dense with
  | true =>
    simp only [if_true, List.nil_append]
    exact pickPartial_spec h hT hn hlt hN
  | false =>
    simp only [Bool.false_eq_true, if_false]
    have hpd : ∀ id ∈ L, ∀ j, place N mode (s.tr id) = (.donated, j) → j = (s.tr id).free.longestFree := by
      intro id _ j hj
      have hd := (place_donated_iff (N := N) (mode := mode) (s.tr id)).1 (by rw [hj])
      unfold place at hj; rw [hd] at hj; simp at hj; exact hj.symm
    rcases takeLeast_spec h (k := .donated) (li := n) hlt with ⟨id, i, h', e, h1, h2, h3, h4, h5, h6⟩ | ⟨e, h1⟩
    · rw [e]
      have hi := hpd id h1 i h2
      have hd := (place_donated_iff (N := N) (mode := mode) (s.tr id)).1 (by rw [h2])
      refine ⟨_, rfl, ⟨_, _, _, rfl, h.remove h1 (by rw [h2]) h4 h5 (fun d => by simp) (fun d => by simp)⟩, h1, by omega,
        ((hT id h1).don hd).1, by rw [h2]; simp, [], _, by rw [h2]; rfl, by simp, ?_⟩
      intro id' hid' hkk hf
      rw [h2] at hkk ⊢; simp only [] at hkk ⊢
      have hp : place N mode (s.tr id') = (.donated, (place N mode (s.tr id')).2) := by rw [← hkk]
      exact h6 id' hid' _ hp (by have := hpd id' hid' _ hp; omega)
    · rw [e]
      simp only []
      obtain ⟨r, er, hr⟩ := pickPartial_spec h hT hn hlt hN
      refine ⟨r, er, hr.skip ?_⟩
      intro id' hid' hkk
      have hp : place N mode (s.tr id') = (.donated, (place N mode (s.tr id')).2) := by rw [← hkk]
      have a := h1 id' hid' _ hp
      have b := hpd id' hid' _ hp
      omega

theorem pick_spec {s : F} {L : List Nat} (h : LI N mode s.tr s.hl s.nUsedRel s.nUsedPart L)
    (hT : ∀ id ∈ L, T N (s.tr id)) {n : Nat} {dense : Bool} (hn : dense = true → n = 1) (hlt : n < N) (hN : 2 ≤ N) :
    ∃ r, pick N s n dense (leastIdx n dense) = some r ∧ PickPost N mode s L n dense (order dense) r := by
  unfold pick
  rcases take_nd h hT hn hlt hN (k := .regular dense) (by simp) with ⟨id, i, h', e, h1, h2, h3, h4, h5, h6, h7, h8⟩ | ⟨e, h1⟩
  · rw [e]
    simp only []
    rw [h3]
    simp only [Bool.false_eq_true, if_false]
    exact ⟨_, rfl, ⟨_, _, _, rfl, h.remove h1 (by rw [h2]) h6 h7 (fun d => by simp) (fun d => by simp)⟩, h1, h5, h4,
      by rw [h2]; simp, [], _, by rw [h2]; rfl, by simp, h8⟩
  · rw [e]
    simp only []
    obtain ⟨r, er, hr⟩ := pickDonated_spec h hT hn hlt hN
    exact ⟨r, er, hr.skip h1⟩

theorem listFor_least {n : Nat} {dense : Bool} (hlt : n < N) (hN : 2 ≤ N) :
    listFor N n 0 dense (N - 1) = some (leastIdx n dense) := by
  unfold listFor leastIdx kChunks
  cases dense with
  | true =>
    have : N - (N - 1) = 1 := by omega
    simp only [if_true, this]
    rw [if_pos (by omega), if_pos (by omega)]
  | false => simp [hlt]

end Verif.Filler
