import Verif.CentralFreeList.Lemmas2
/-! The locked loops of `InsertRange` and `RemoveRange`, and `Populate`. -/
namespace Verif.CentralFreeList
open Verif.Span (Geo Mem IsObj InObj)
open Verif.HintedLists (HL)

/-! ### Run lengths -/

/-- From position `i` on, hopping by the recorded run lengths visits stretches of equal spans. -/
inductive Good (runs : List Nat) : Nat → List Nat → Prop
  | nil (i : Nat) : Good runs i []
  | cons (i m s : Nat) (rest : List Nat) : runs[i]? = some (m + 1) → Good runs (i + (m + 1)) rest →
      Good runs i (List.replicate (m + 1) s ++ rest)

theorem runsLoop_good : ∀ (xs : List Nat) (i rs last : Nat) (runs : List Nat), rs < i →
    i + xs.length ≤ runs.length →
    Good (runsLoop xs i rs last runs) rs (List.replicate (i - rs) last ++ xs) ∧
      ∀ j, j < rs → (runsLoop xs i rs last runs)[j]? = runs[j]? := by
  intro xs
  induction xs with
  | nil =>
    intro i rs last runs h1 h2
    simp only [List.length_nil, Nat.add_zero] at h2
    constructor
    · have : i - rs = (i - rs - 1) + 1 := by omega
      rw [this]
      refine .cons rs _ last [] ?_ (.nil _)
      rw [runsLoop, List.getElem?_set, if_pos rfl, if_pos (by omega)]
      congr 1
    · intro j hj
      rw [runsLoop, List.getElem?_set, if_neg (by omega)]
  | cons x xs ih =>
    intro i rs last runs h1 h2
    rw [List.length_cons] at h2
    rw [runsLoop]
    by_cases hx : last = x
    · rw [if_pos hx]
      obtain ⟨a, b⟩ := ih (i + 1) rs last runs (by omega) (by omega)
      refine ⟨?_, b⟩
      have : List.replicate (i - rs) last ++ x :: xs = List.replicate (i + 1 - rs) last ++ xs := by
        rw [show i + 1 - rs = (i - rs) + 1 by omega, List.replicate_succ', ← hx]; simp
      rw [this]; exact a
    · rw [if_neg hx]
      obtain ⟨a, b⟩ := ih (i + 1) i x (runs.set rs (i - rs)) (by omega) (by rw [List.length_set]; omega)
      constructor
      · have h3 := b rs h1
        rw [List.getElem?_set, if_pos rfl, if_pos (by omega)] at h3
        have : i - rs = (i - rs - 1) + 1 := by omega
        rw [this] at h3
        rw [this]
        refine .cons rs _ last _ ?_ ?_
        · rw [← h3]
        · rw [show rs + (i - rs - 1 + 1) = i by omega]
          rw [show i + 1 - i = 1 by omega] at a
          have h4 : i - rs - 1 + 1 = i - rs := by omega
          rw [h4]
          exact a
      · intro j hj
        rw [b j (by omega), List.getElem?_set, if_neg (by omega)]

theorem recordSameSpanRuns_good {spans : List Nat} (h : spans ≠ []) :
    ∃ runs, recordSameSpanRuns spans = some runs ∧ Good runs 0 spans := by
  cases spans with
  | nil => exact absurd rfl h
  | cons s rest =>
    refine ⟨_, rfl, ?_⟩
    have := (runsLoop_good rest 1 0 s (List.replicate (rest.length + 1) 0) (by omega) (by simp; omega)).1
    simpa using this

/-! ### The loop of `InsertRange` -/

theorem K.obj_span {k : Geo} (hk : k.OK) {c : Cfl} {sp : List Nat} {live : Nat → List Nat}
    (h : K k c sp live) {p q o : Nat} (hp : p ∈ sp) (hq : q ∈ sp) (ho : o ∈ live p) (ho' : o ∈ live q) :
    p = q := by
  apply Classical.byContradiction
  intro hne
  have h1 := obj_range hk ((h.facts hk hp).2.1 o ho)
  have h2 := obj_range hk ((h.facts hk hq).2.1 o ho')
  have := hk.sizePos
  rcases h.apart p hp q hq hne with h | h
  · have := Nat.mul_le_mul_right k.pageSize h; omega
  · have := Nat.mul_le_mul_right k.pageSize h; omega

theorem zip_replicate_append (s : Nat) : ∀ (n : Nat) (B rest : List Nat), n ≤ B.length →
    B.zip (List.replicate n s ++ rest) = (B.take n).map (fun o => (o, s)) ++ (B.drop n).zip rest := by
  intro n
  induction n with
  | zero => intro B rest _; simp
  | succ n ih =>
    intro B rest h
    cases B with
    | nil => simp at h
    | cons b B =>
      rw [List.length_cons] at h
      rw [List.replicate_succ, List.cons_append, List.zip_cons_cons, ih B rest (by omega)]
      simp

theorem erase_filter {sp : List Nat} (h : sp.Nodup) (p : Nat) (freed : List Nat) :
    (sp.erase p).filter (fun q => decide (q ∉ freed)) = sp.filter fun q => decide (q ∉ p :: freed) := by
  rw [h.erase_eq_filter, List.filter_filter]
  apply List.filter_congr
  intro q _
  by_cases hq : q = p <;> simp [hq]

theorem filter_two (L A B : List Nat) :
    (L.filter fun o => decide (o ∉ A)).filter (fun o => decide (o ∉ B)) =
      L.filter fun o => decide (o ∉ A ++ B) := by
  rw [List.filter_filter]
  apply List.filter_congr
  intro q _
  simp [List.mem_append, Bool.and_comm]

theorem filter_none {L A : List Nat} (h : ∀ o ∈ L, o ∉ A) : L.filter (fun o => decide (o ∉ A)) = L := by
  rw [List.filter_eq_self]
  intro o ho
  simpa using h o ho

theorem insertLoop_spec {k : Geo} (hk : k.OK) {runs idx : List Nat} {n : Nat} :
    ∀ (fuel : Nat) (S B : List Nat) (i fc : Nat) (spans : List Nat) (c : Cfl) (sp : List Nat)
      (live : Nat → List Nat), K k c sp live → Good runs i S → spans.drop i = S → B.length = S.length →
      idx.drop i = (B.zip S).map (fun (a, p) => Span.objIdx (spanAt k p) a) → n = i + S.length →
      n = spans.length → fc ≤ i → S.length ≤ fuel →
      (∀ x ∈ B.zip S, x.2 ∈ sp ∧ x.1 ∈ live x.2) → B.Nodup →
      ∃ c' freed live', insertLoop k runs idx n fuel c spans fc i = some (c', spans.take fc ++ freed) ∧
        K k c' (sp.filter fun p => decide (p ∉ freed)) live' ∧ Same c c' ∧ freed.Nodup ∧
        (∀ p ∈ freed, p ∈ sp ∧ ∀ o ∈ live p, o ∈ B) ∧ freed.length ≤ S.length ∧
        (∀ p ∈ sp, p ∉ freed → live' p = (live p).filter fun o => decide (o ∉ B)) ∧
        (∀ q ∈ sp, ∀ o ∈ live q, o ∉ B → ∀ a, InObj (spanAt k q) o a → c'.w a = c.w a) ∧
        ∀ a, (∀ q ∈ sp, ∀ o, IsObj (spanAt k q) o → ¬ InObj (spanAt k q) o a) → c'.w a = c.w a := by
  intro fuel
  induction fuel with
  | zero =>
    intro S B i fc spans c sp live h hg hS hB hidx hn hn2 hfc hf hz hnd
    have hS0 : S = [] := List.length_eq_zero_iff.1 (by omega)
    subst hS0
    have hB0 : B = [] := List.length_eq_zero_iff.1 hB
    subst hB0
    simp only [List.length_nil, Nat.add_zero] at hn
    refine ⟨c, [], live, by simp [insertLoop, hn], ?_, Same.refl c, List.nodup_nil, by simp, by simp, ?_,
      fun _ _ _ _ _ _ _ => rfl, fun _ _ => rfl⟩
    · rw [filter_none (by simp)]; exact h
    · intro p _ _; rw [filter_none (by simp)]
  | succ fuel ih =>
    intro S B i fc spans c sp live h hg hS hB hidx hn hn2 hfc hf hz hnd
    cases hg with
    | nil =>
      have hB0 : B = [] := List.length_eq_zero_iff.1 hB
      subst hB0
      simp only [List.length_nil, Nat.add_zero] at hn
      refine ⟨c, [], live, by simp [insertLoop, hn], ?_, Same.refl c, List.nodup_nil, by simp, by simp, ?_,
        fun _ _ _ _ _ _ _ => rfl, fun _ _ => rfl⟩
      · rw [filter_none (by simp)]; exact h
      · intro p _ _; rw [filter_none (by simp)]
    | cons _ m s rest hr hg' =>
      simp only [List.length_append, List.length_replicate] at hB hn hf
      have hzip := zip_replicate_append s (m + 1) B rest (by omega)
      have hBsplit : B.take (m + 1) ++ B.drop (m + 1) = B := List.take_append_drop _ _
      generalize hR : B.take (m + 1) = R at *
      generalize hT : B.drop (m + 1) = T at *
      have hRlen : R.length = m + 1 := by rw [← hR, List.length_take]; omega
      have hTlen : T.length = rest.length := by rw [← hT, List.length_drop]; omega
      rw [← hBsplit] at hnd
      obtain ⟨hRnd, hTnd, hRT⟩ := List.nodup_append.1 hnd
      rw [hzip] at hz hidx
      have hspi : spans[i]? = some s := by
        have : (spans.drop i)[0]? = some s := by rw [hS]; rfl
        rwa [List.getElem?_drop, Nat.add_zero] at this
      have hRs : ∀ o ∈ R, s ∈ sp ∧ o ∈ live s := fun o ho =>
        hz (o, s) (List.mem_append_left _ (List.mem_map.2 ⟨o, ho, rfl⟩))
      have hTs : ∀ x ∈ T.zip rest, x.2 ∈ sp ∧ x.1 ∈ live x.2 := fun x hx =>
        hz x (List.mem_append_right _ hx)
      have hRne : R ≠ [] := by rintro rfl; simp at hRlen
      have hs : s ∈ sp := by
        obtain ⟨o, ho⟩ := List.exists_mem_of_ne_nil R hRne
        exact (hRs o ho).1
      have hb : (idx.drop i).take (m + 1) = R.map (Span.objIdx (spanAt k s)) := by
        rw [hidx, List.map_append, List.take_append_of_le_length (by simp [hRlen])]
        rw [List.take_of_length_le (by simp [hRlen]), List.map_map]
        rfl
      have hidx' : idx.drop (i + (m + 1)) = (T.zip rest).map (fun (a, p) => Span.objIdx (spanAt k p) a) := by
        rw [← List.drop_drop, hidx, List.map_append]
        rw [List.drop_append_of_le_length (by simp [hRlen]), List.drop_of_length_le (by simp [hRlen])]
        rfl
      have hdrop : spans.drop (i + (m + 1)) = rest := by
        rw [← List.drop_drop, hS, List.drop_append_of_le_length (by simp)]
        simp
      have hTmem : ∀ o ∈ T, ∃ p, (o, p) ∈ T.zip rest := by
        intro o ho
        obtain ⟨j, hj, rfl⟩ := List.mem_iff_getElem.1 ho
        refine ⟨rest[j]'(by omega), ?_⟩
        rw [List.mem_iff_getElem]
        exact ⟨j, by rw [List.length_zip]; omega, by rw [List.getElem_zip]⟩
      rw [insertLoop, if_pos (by omega), hr, hspi]
      simp only [hb]
      rw [if_neg (by omega)]
      have hmemB : ∀ o, o ∈ B ↔ o ∈ R ∨ o ∈ T := by
        intro o; rw [← hBsplit, List.mem_append]
      rcases release_spec hk h hs hRnd hRne (fun o ho => (hRs o ho).2) with
        ⟨hall, c1, e1, k1, s1, w1⟩ | ⟨hnall, c1, e1, k1, s1, m1, r1⟩
      · rw [e1]
        simp only []
        have hTs' : ∀ x ∈ T.zip rest, x.2 ∈ sp.erase s ∧ x.1 ∈ live x.2 := by
          intro x hx
          obtain ⟨a, b⟩ := hTs x hx
          refine ⟨h.nodup.mem_erase_iff.2 ⟨fun e => ?_, a⟩, b⟩
          rw [e] at b
          have hxT : x.1 ∈ T := (List.of_mem_zip hx).1
          exact hRT x.1 (hall _ b) x.1 hxT rfl
        obtain ⟨c', freed, live', e2, k2, s2, n2, f2, l2, v2, m2, r2⟩ := ih rest T (i + (m + 1)) (fc + 1)
          (spans.set fc s) c1 (sp.erase s) live k1 hg'
          (by rw [List.drop_set, if_pos (by omega)]; exact hdrop) hTlen hidx'
          (by omega) (by rw [List.length_set]; exact hn2) (by omega) (by omega) hTs' hTnd
        refine ⟨c', s :: freed, live', ?_, ?_, s1.trans s2, ?_, ?_, ?_, ?_, ?_, ?_⟩
        · rw [e2]
          congr 2
          have hlt : fc < spans.length := by omega
          rw [List.take_add_one, List.getElem?_set, if_pos rfl, if_pos hlt, List.take_set_of_le (Nat.le_refl _)]
          simp
        · rw [← erase_filter h.nodup]; exact k2
        · refine List.nodup_cons.2 ⟨fun hm => ?_, n2⟩
          exact (h.nodup.mem_erase_iff.1 (f2 s hm).1).1 rfl
        · intro p hp
          rcases List.mem_cons.1 hp with rfl | hp
          · exact ⟨hs, fun o ho => (hmemB o).2 (Or.inl (hall o ho))⟩
          · obtain ⟨a, b⟩ := f2 p hp
            exact ⟨List.mem_of_mem_erase a, fun o ho => (hmemB o).2 (Or.inr (b o ho))⟩
        · simp only [List.length_cons, List.length_append, List.length_replicate]; omega
        · intro p hp hpf
          have hps : p ≠ s := fun e => hpf (by simp [e])
          rw [v2 p (h.nodup.mem_erase_iff.2 ⟨hps, hp⟩) (fun hm => hpf (List.mem_cons_of_mem _ hm)),
            ← hBsplit, ← filter_two, filter_none (L := live p) (A := R)]
          intro o ho hoR
          exact hps (h.obj_span hk hp hs ho (hRs o hoR).2)
        · intro q hq o ho hoB a ha
          by_cases hqs : q = s
          · subst hqs; exact absurd ((hmemB o).2 (Or.inl (hall o ho))) hoB
          · rw [m2 q (h.nodup.mem_erase_iff.2 ⟨hqs, hq⟩) o ho (fun hm => hoB ((hmemB o).2 (Or.inr hm))) a ha, w1]
        · intro a ha
          rw [r2 a (fun q hq => ha q (List.mem_of_mem_erase hq)), w1]
      · rw [e1]
        simp only []
        have hTs' : ∀ x ∈ T.zip rest, x.2 ∈ sp ∧
            x.1 ∈ upd live s ((live s).filter fun o => decide (o ∉ R)) x.2 := by
          intro x hx
          obtain ⟨a, b⟩ := hTs x hx
          refine ⟨a, ?_⟩
          have hxT : x.1 ∈ T := (List.of_mem_zip hx).1
          by_cases hxs : x.2 = s
          · rw [hxs, upd_same, List.mem_filter]
            rw [hxs] at b
            refine ⟨b, ?_⟩
            simp only [decide_eq_true_eq]
            exact fun hR => hRT x.1 hR x.1 hxT rfl
          · rw [upd_ne _ _ hxs]; exact b
        obtain ⟨c', freed, live', e2, k2, s2, n2, f2, l2, v2, m2, r2⟩ := ih rest T (i + (m + 1)) fc
          spans c1 sp _ k1 hg' hdrop hTlen hidx' (by omega) hn2 (by omega) (by omega) hTs' hTnd
        have hlive1 : ∀ p ∈ sp, upd live s ((live s).filter fun o => decide (o ∉ R)) p =
            (live p).filter fun o => decide (o ∉ R) := by
          intro p hp
          by_cases hps : p = s
          · subst hps; rw [upd_same]
          · rw [upd_ne _ _ hps, filter_none]
            intro o ho hoR
            exact hps (h.obj_span hk hp hs ho (hRs o hoR).2)
        refine ⟨c', freed, live', e2, k2, s1.trans s2, n2, ?_, ?_, ?_, ?_, ?_⟩
        · intro p hp
          obtain ⟨a, b⟩ := f2 p hp
          refine ⟨a, fun o ho => ?_⟩
          rw [hlive1 p a] at b
          rw [hmemB]
          by_cases hoR : o ∈ R
          · exact Or.inl hoR
          · exact Or.inr (b o (List.mem_filter.2 ⟨ho, by simpa using hoR⟩))
        · simp only [List.length_append, List.length_replicate]; omega
        · intro p hp hpf
          rw [v2 p hp hpf, hlive1 p hp, filter_two, hBsplit]
        · intro q hq o ho hoB a ha
          have hoR : o ∉ R := fun hm => hoB ((hmemB o).2 (Or.inl hm))
          rw [m2 q hq o (by rw [hlive1 q hq]; exact List.mem_filter.2 ⟨ho, by simpa using hoR⟩)
            (fun hm => hoB ((hmemB o).2 (Or.inr hm))) a ha]
          exact m1 q hq o ho hoR a ha
        · intro a ha
          rw [r2 a ha, r1 a ha]

end Verif.CentralFreeList
