import Verif.HugeAddressMap.Lemmas
namespace Verif.HugeAddressMap

theorem srt_split {L : List Rng} (p : Nat) (h : Srt L) :
    L = L.filter (fun x => decide (x.s ≤ p)) ++ L.filter (fun x => decide (p < x.s)) := by
  induction L with
  | nil => rfl
  | cons a L ih =>
    obtain ⟨h1, h2⟩ := List.pairwise_cons.1 h
    by_cases ha : a.s ≤ p
    · simp only [List.filter_cons]
      rw [if_pos (by simpa using ha), if_neg (by simp; omega), List.cons_append, ← ih h2]
    · have e1 : (a :: L).filter (fun x => decide (x.s ≤ p)) = [] :=
        filter_none (fun y hy => by
          rcases List.mem_cons.1 hy with rfl | hy
          · simp; omega
          · have := h1 y hy; simp; omega)
      have e2 : (a :: L).filter (fun x => decide (p < x.s)) = a :: L :=
        filter_all (fun y hy => by
          rcases List.mem_cons.1 hy with rfl | hy
          · simp; omega
          · have := h1 y hy; simp; omega)
      rw [e1, e2]; rfl

structure Inv (m : HMap) : Prop where
  sep : Sep (ranges m.root)
  lok : LOK m.root
  heap : Heap m.root
  used : m.used = (ranges m.root).length
  total : m.total = lenSum (ranges m.root)
  created : m.created = m.used + m.freeN

theorem Inv.init : Inv HMap.init :=
  ⟨⟨by simp [HMap.init, ranges], by simp [HMap.init, ranges]⟩, trivial, trivial, rfl, rfl, rfl⟩

theorem lenSum_append (A B : List Rng) : lenSum (A ++ B) = lenSum A + lenSum B := by
  induction A with
  | nil => simp [lenSum]
  | cons a A ih => simp only [List.cons_append, lenSum, ih]; omega

theorem intersects_iff {a r : Rng} (ha : 0 < a.n) (hr : 0 < r.n) :
    a.intersects r = true ↔ ∃ p, a.Has p ∧ r.Has p := by
  unfold Rng.intersects
  rw [Bool.or_eq_true, contains_iff, contains_iff]
  unfold Rng.Has
  constructor
  · rintro (h | h)
    · exact ⟨a.s, by omega, by omega⟩
    · exact ⟨r.s, by omega, by omega⟩
  · rintro ⟨p, h1, h2⟩; omega

theorem Sep.append_iff {A B : List Rng} :
    Sep (A ++ B) ↔ Sep A ∧ Sep B ∧ ∀ a ∈ A, ∀ b ∈ B, a.s + a.n < b.s := by
  unfold Sep
  rw [List.pairwise_append]
  constructor
  · rintro ⟨h1, h2, h3, h4⟩
    exact ⟨⟨fun r hr => h1 r (by simp [hr]), h2⟩, ⟨fun r hr => h1 r (by simp [hr]), h3⟩, h4⟩
  · rintro ⟨⟨h1, h2⟩, ⟨h3, h4⟩, h5⟩
    refine ⟨fun r hr => ?_, h2, h4, h5⟩
    rcases List.mem_append.1 hr with h | h
    · exact h1 r h
    · exact h3 r h

theorem Sep.cons_iff {a : Rng} {B : List Rng} :
    Sep (a :: B) ↔ 0 < a.n ∧ Sep B ∧ ∀ b ∈ B, a.s + a.n < b.s := by
  unfold Sep
  rw [List.pairwise_cons]
  constructor
  · rintro ⟨h1, h2, h3⟩
    exact ⟨h1 a (by simp), ⟨fun r hr => h1 r (by simp [hr]), h3⟩, h2⟩
  · rintro ⟨h1, ⟨h2, h3⟩, h4⟩
    refine ⟨fun r hr => ?_, h4, h3⟩
    rcases List.mem_cons.1 hr with rfl | h
    · exact h1
    · exact h2 r h

theorem Cov.append_iff {A B : List Rng} {p : Nat} : Cov (A ++ B) p ↔ Cov A p ∨ Cov B p := by
  unfold Cov
  constructor
  · rintro ⟨r, hr, h⟩
    rcases List.mem_append.1 hr with h' | h'
    · exact Or.inl ⟨r, h', h⟩
    · exact Or.inr ⟨r, h', h⟩
  · rintro (⟨r, hr, h⟩ | ⟨r, hr, h⟩)
    · exact ⟨r, by simp [hr], h⟩
    · exact ⟨r, by simp [hr], h⟩

theorem Cov.cons_iff {a : Rng} {B : List Rng} {p : Nat} : Cov (a :: B) p ↔ a.Has p ∨ Cov B p := by
  unfold Cov
  constructor
  · rintro ⟨r, hr, h⟩
    rcases List.mem_cons.1 hr with rfl | h'
    · exact Or.inl h
    · exact Or.inr ⟨r, h', h⟩
  · rintro (h | ⟨r, hr, h⟩)
    · exact ⟨a, by simp, h⟩
    · exact ⟨r, by simp [hr], h⟩

theorem Cov.nil_iff {p : Nat} : Cov [] p ↔ False := by
  unfold Cov; simp

theorem filter_ne_key {A B : List Rng} {a : Rng} (h : Srt (A ++ a :: B)) :
    (A ++ a :: B).filter (fun x => decide (x.s ≠ a.s)) = A ++ B := by
  obtain ⟨_, _, h3, h4, _⟩ := h.split
  have e1 : A.filter (fun x => decide (x.s ≠ a.s)) = A :=
    filter_all (fun y hy => by have := h3 y hy; simp; omega)
  have e2 : B.filter (fun x => decide (x.s ≠ a.s)) = B :=
    filter_all (fun y hy => by have := h4 y hy; simp; omega)
  rw [List.filter_append, List.filter_cons, e1, e2]
  simp

theorem map_key {A B : List Rng} {a q : Rng} (h : Srt (A ++ a :: B)) :
    (A ++ a :: B).map (fun x => if x.s = a.s then q else x) = A ++ q :: B := by
  obtain ⟨_, _, h3, h4, _⟩ := h.split
  have e1 : A.map (fun x => if x.s = a.s then q else x) = A :=
    map_id' (fun y hy => by have := h3 y hy; rw [if_neg (by omega)])
  have e2 : B.map (fun x => if x.s = a.s then q else x) = B :=
    map_id' (fun y hy => by have := h4 y hy; rw [if_neg (by omega)])
  rw [List.map_append, List.map_cons, e1, e2, if_pos rfl]

/-- Removing the node of range `a`. -/
theorem remove_spec {m : HMap} (h : Inv m) {A B : List Rng} {a : Rng}
    (e : ranges m.root = A ++ a :: B) :
    ∃ m', remove m a.s = some m' ∧ ranges m'.root = A ++ B ∧ Inv m' ∧ m'.seed = m.seed := by
  have hk : HasKey (ranges m.root) a.s := ⟨a, by rw [e]; simp, rfl⟩
  obtain ⟨q, hq, hqs, hl⟩ := (lookup_spec a.s m.root).2 hk
  obtain ⟨t', ht, hr, o1, o2, _⟩ := (removeAt_spec a.s m.root h.sep.srt h.lok h.heap).2 hk
  have hs := h.sep
  have hsrt := hs.srt
  rw [e] at hs hsrt hq hr
  have hqa : q = a := by
    obtain ⟨_, _, h3, h4, _⟩ := hsrt.split
    rcases List.mem_append.1 hq with h' | h'
    · have := h3 q h'; omega
    · rcases List.mem_cons.1 h' with h' | h'
      · exact h'
      · have := h4 q h'; omega
  subst hqa
  rw [filter_ne_key hsrt] at hr
  unfold remove
  rw [hl, ht]
  refine ⟨_, rfl, hr, ?_, rfl⟩
  obtain ⟨s1, s2, s3⟩ := Sep.append_iff.1 hs
  have hu := h.used; have htot := h.total; have hc := h.created
  rw [e] at hu htot
  simp only [List.length_append, List.length_cons, lenSum_append, lenSum] at hu htot
  constructor
  · rw [hr]; exact Sep.append_iff.2 ⟨s1, (Sep.cons_iff.1 s2).2.1, fun x hx y hy => s3 x hx y (by simp [hy])⟩
  · exact o1
  · exact o2
  · simp only [hr, List.length_append]; omega
  · simp only [hr, lenSum_append]; omega
  · simp only []; omega

/-- Replacing the range of a node. -/
theorem setRange_at {t : Tree} (hs : Srt (ranges t)) (hl : LOK t) (hh : Heap t) {A B : List Rng} {a q : Rng}
    (e : ranges t = A ++ a :: B) :
    ∃ t', setRange a.s q t = some t' ∧ ranges t' = A ++ q :: B ∧ LOK t' ∧ Heap t' := by
  obtain ⟨t', ht, hr, o1, o2, _⟩ := (setRange_spec a.s q t hs hl hh).2 ⟨a, by rw [e]; simp, rfl⟩
  rw [e] at hr hs
  rw [map_key hs] at hr
  exact ⟨t', ht, hr, o1, o2⟩

theorem insert_spec {m : HMap} (h : Inv m) {r : Rng} (hr : 0 < r.n) :
    ((∃ p, r.Has p ∧ Cov (ranges m.root) p) → insert m r = none) ∧
    ((∀ p, r.Has p → ¬ Cov (ranges m.root) p) → ∃ m', insert m r = some m' ∧ Inv m' ∧
      ∀ p, Cov (ranges m'.root) p ↔ Cov (ranges m.root) p ∨ r.Has p) := by
  have hs := h.sep
  have hsrt := hs.srt
  have hAB := srt_split r.s hsrt
  have hA0 : ∀ x ∈ (ranges m.root).filter (fun x => decide (x.s ≤ r.s)), x.s ≤ r.s := by
    intro x hx; have := (List.mem_filter.1 hx).2; simpa using this
  have hB0 : ∀ x ∈ (ranges m.root).filter (fun x => decide (r.s < x.s)), r.s < x.s := by
    intro x hx; have := (List.mem_filter.1 hx).2; simpa using this
  have hpred := pred_spec r.s m.root none hs
  generalize hA : (ranges m.root).filter (fun x => decide (x.s ≤ r.s)) = A at hAB hA0 hpred
  generalize hB : (ranges m.root).filter (fun x => decide (r.s < x.s)) = B at hAB hB0
  have hpred' : pred r.s m.root none = A.getLast? := by rw [hpred]; simp
  have hu := h.used; have htot := h.total; have hc := h.created
  rw [hAB] at hs hsrt hu htot
  obtain ⟨sA, sB, sAB⟩ := Sep.append_iff.1 hs
  -- the successor computed by the code
  have hafter : afterOf m.root A.getLast? = some B.head? := by
    unfold afterOf
    cases hg : A.getLast? with
    | none =>
      simp only [List.getLast?_eq_none_iff] at hg
      simp only [first_eq, hAB, hg, List.nil_append]
    | some b =>
      obtain ⟨A', rfl⟩ := List.getLast?_eq_some_iff.1 hg
      simp only []
      rw [(nextOf_spec b.s m.root none h.sep.srt).2 ⟨b, by rw [hAB]; simp, rfl⟩, hAB]
      have e1 : (A' ++ [b]).filter (fun x => decide (b.s < x.s)) = [] := by
        refine filter_none (fun y hy => ?_)
        have := List.pairwise_append.1 sA.srt
        rcases List.mem_append.1 hy with hy | hy
        · have := this.2.2 y hy b (by simp); simp; omega
        · simp only [List.mem_singleton] at hy; subst hy; simp
      have e2 : B.filter (fun x => decide (b.s < x.s)) = B :=
        filter_all (fun y hy => by
          have := hB0 y hy; have := hA0 b (by simp); simp; omega)
      rw [List.filter_append, e1, e2]
      simp
  -- no intersection with the neighbours = disjoint from everything
  have hcovB : ∀ b ∈ A.getLast?, 0 < b.n := fun b hb => sA.1 b (List.mem_of_getLast? hb)
  have hcovA : ∀ a ∈ B.head?, 0 < a.n := fun a ha => sB.1 a (List.mem_of_head? ha)
  unfold insert
  simp only [hpred', hafter]
  have hdis : (∀ b ∈ A.getLast?, b.s + b.n ≤ r.s) → (∀ a ∈ B.head?, r.s + r.n ≤ a.s) →
      (∀ x ∈ A, x.s + x.n ≤ r.s) ∧ (∀ x ∈ B, r.s + r.n ≤ x.s) := by
    intro h1 h2
    constructor
    · intro x hx
      cases hg : A.getLast? with
      | none => simp only [List.getLast?_eq_none_iff] at hg; subst hg; simp at hx
      | some b =>
        have hb := h1 b (by rw [hg]; rfl)
        obtain ⟨A', rfl⟩ := List.getLast?_eq_some_iff.1 hg
        rcases List.mem_append.1 hx with hx | hx
        · have := (List.pairwise_append.1 sA.2).2.2 x hx b (by simp)
          have := hA0 b (by simp); omega
        · simp only [List.mem_singleton] at hx; subst hx; exact hb
    · intro x hx
      cases B with
      | nil => simp at hx
      | cons a B' =>
        have ha := h2 a rfl
        rcases List.mem_cons.1 hx with rfl | hx
        · exact ha
        · have := (List.pairwise_cons.1 sB.2).1 x hx; omega
  have hbefore : ∀ b ∈ A.getLast?, (b.intersects r = true ↔ ¬ b.s + b.n ≤ r.s) := by
    intro b hb
    rw [intersects_iff (hcovB b hb) hr]
    have h1 := hA0 b (List.mem_of_getLast? hb)
    unfold Rng.Has
    constructor
    · rintro ⟨p, q1, q2⟩; omega
    · intro hn; exact ⟨r.s, by omega, by omega⟩
  have hafter' : ∀ a ∈ B.head?, (a.intersects r = true ↔ ¬ r.s + r.n ≤ a.s) := by
    intro a ha
    rw [intersects_iff (hcovA a ha) hr]
    have h1 := hB0 a (List.mem_of_head? ha)
    have := hcovA a ha
    unfold Rng.Has
    constructor
    · rintro ⟨p, q1, q2⟩; omega
    · intro hn; exact ⟨a.s, by omega, by omega⟩
  have hi1 : meets A.getLast? r = true ↔
      ∃ b ∈ A.getLast?, ¬ b.s + b.n ≤ r.s := by
    cases hg : A.getLast? with
    | none => simp [meets]
    | some b =>
      simp only [Option.mem_def, Option.some.injEq, exists_eq_left']
      exact hbefore b hg
  have hi2 : meets B.head? r = true ↔
      ∃ a ∈ B.head?, ¬ r.s + r.n ≤ a.s := by
    cases hg : B.head? with
    | none => simp [meets]
    | some a =>
      simp only [Option.mem_def, Option.some.injEq, exists_eq_left']
      exact hafter' a hg
  constructor
  · rintro ⟨p, hp, hcov⟩
    by_cases c1 : meets A.getLast? r = true
    · rw [if_pos c1]
    · rw [if_neg c1]
      by_cases c2 : meets B.head? r = true
      · rw [if_pos c2]
      · exfalso
        rw [hi1] at c1
        rw [hi2] at c2
        obtain ⟨d1, d2⟩ := hdis
          (fun b hb => Classical.byContradiction fun hn => c1 ⟨b, hb, hn⟩)
          (fun a ha => Classical.byContradiction fun hn => c2 ⟨a, ha, hn⟩)
        rw [hAB] at hcov
        obtain ⟨x, hx, hxp⟩ := hcov
        unfold Rng.Has at hp hxp
        rcases List.mem_append.1 hx with hx | hx
        · have := d1 x hx; omega
        · have := d2 x hx; omega
  · intro hfree
    have n1 : ¬ meets A.getLast? r = true := by
      rw [hi1]; rintro ⟨b, hb, hn⟩
      refine hfree r.s ⟨Nat.le_refl _, by omega⟩ ⟨b, ?_, ?_⟩
      · rw [hAB]; exact List.mem_append_left _ (List.mem_of_getLast? hb)
      · have := hA0 b (List.mem_of_getLast? hb); unfold Rng.Has; omega
    have n2 : ¬ meets B.head? r = true := by
      rw [hi2]; rintro ⟨a, ha, hn⟩
      have := hB0 a (List.mem_of_head? ha)
      refine hfree a.s ⟨by omega, by omega⟩ ⟨a, ?_, ?_⟩
      · rw [hAB]; exact List.mem_append_right _ (List.mem_of_head? ha)
      · have := hcovA a ha; unfold Rng.Has; omega
    rw [if_neg n1, if_neg n2]
    rw [hi1] at n1
    rw [hi2] at n2
    obtain ⟨d1, d2⟩ := hdis
      (fun b hb => Classical.byContradiction fun hn => n1 ⟨b, hb, hn⟩)
      (fun a ha => Classical.byContradiction fun hn => n2 ⟨a, ha, hn⟩)
    by_cases p1 : endsAt A.getLast? r = true
    · rw [if_pos p1]
      cases hg : A.getLast? with
      | none => rw [hg] at p1; simp [endsAt] at p1
      | some b =>
        rw [hg] at p1
        simp only [endsAt, Rng.precedes, decide_eq_true_eq] at p1
        obtain ⟨A', rfl⟩ := List.getLast?_eq_some_iff.1 hg
        have sA' := Sep.append_iff.1 sA
        by_cases p2 : startsAt r B.head? = true
        · rw [if_pos p2]
          cases B with
          | nil => simp [startsAt] at p2
          | cons a B' =>
            simp only [startsAt, List.head?_cons, Rng.precedes, decide_eq_true_eq] at p2
            simp only [List.head?_cons, merge]
            -- remove `a`, then widen `b`
            have hInv0 : Inv m := h
            have hsB := Sep.cons_iff.1 sB
            have hk : HasKey (ranges m.root) a.s := ⟨a, by rw [hAB]; simp, rfl⟩
            obtain ⟨m1, e1, e2, e3, e4⟩ := remove_spec h (A := A' ++ [b]) (a := a) (B := B') (by rw [hAB])
            have hrem : ∃ m2, remove { m with total := m.total + r.n + a.n } a.s = some m2 ∧
                m2.root = m1.root ∧ m2.total = m.total + r.n ∧ m2.used = m1.used ∧ m2.freeN = m1.freeN ∧
                m2.created = m1.created ∧ a.n ≤ m.total := by
              obtain ⟨q, hq, hqs, hl⟩ := (lookup_spec a.s m.root).2 hk
              have hqa : q = a := by
                rw [hAB] at hq
                obtain ⟨_, _, h3, h4, _⟩ := (hsrt : Srt ((A' ++ [b]) ++ a :: B')).split
                rcases List.mem_append.1 hq with h' | h'
                · have := h3 q h'; omega
                · rcases List.mem_cons.1 h' with h' | h'
                  · exact h'
                  · have := h4 q h'; omega
              subst hqa
              unfold remove at e1 ⊢
              simp only [hl] at e1 ⊢
              cases hx : removeAt q.s m.root with
              | none => rw [hx] at e1; simp at e1
              | some t =>
                rw [hx] at e1
                simp only [Option.some.injEq] at e1
                subst e1
                simp only [lenSum_append, lenSum] at htot
                refine ⟨_, rfl, rfl, ?_, rfl, rfl, rfl, by omega⟩
                simp only []; omega
            obtain ⟨m2, f1, f2, f3, f4, f5, f6, f7⟩ := hrem
            have e2' : ranges m2.root = A' ++ b :: B' := by rw [f2, e2]; simp
            obtain ⟨t, g1, g2, g3, g4⟩ := setRange_at (t := m2.root) (q := join b (join r a))
              (by rw [f2]; exact e3.sep.srt) (by rw [f2]; exact e3.lok) (by rw [f2]; exact e3.heap) e2'
            simp only [f1, g1]
            refine ⟨_, rfl, ?_, ?_⟩
            · constructor
              · simp only [g2]
                refine Sep.append_iff.2 ⟨sA'.1, Sep.cons_iff.2 ⟨?_, hsB.2.1, ?_⟩, ?_⟩
                · simp only [join]; omega
                · intro y hy; have := hsB.2.2 y hy; simp only [join]; omega
                · intro x hx y hy
                  have hxb := sA'.2.2 x hx b (by simp)
                  rcases List.mem_cons.1 hy with rfl | hy
                  · simpa only [join] using hxb
                  · have := sAB x (by simp [hx]) y (by simp [hy]); exact this
              · exact g3
              · exact g4
              · simp only [g2, f4]
                have := e3.used
                rw [e2] at this
                simp only [List.length_append, List.length_cons, List.length_nil] at this ⊢; omega
              · simp only [g2, f3, lenSum_append, lenSum, join]
                simp only [lenSum_append, lenSum] at htot; omega
              · simp only [f6, f4, f5]; exact e3.created
            · intro p
              simp only [g2]
              rw [hAB]
              simp only [Cov.append_iff, Cov.cons_iff, Cov.nil_iff, or_false, Rng.Has, join]
              have : (b.s ≤ p ∧ p < b.s + (b.n + (r.n + a.n))) ↔
                  (b.s ≤ p ∧ p < b.s + b.n) ∨ (r.s ≤ p ∧ p < r.s + r.n) ∨ (a.s ≤ p ∧ p < a.s + a.n) := by
                omega
              rw [this]
              constructor
              · rintro (h | (h | h | h) | h)
                · exact Or.inl (Or.inl (Or.inl h))
                · exact Or.inl (Or.inl (Or.inr h))
                · exact Or.inr h
                · exact Or.inl (Or.inr (Or.inl h))
                · exact Or.inl (Or.inr (Or.inr h))
              · rintro (((h | h) | h | h) | h)
                · exact Or.inl h
                · exact Or.inr (Or.inl (Or.inl h))
                · exact Or.inr (Or.inl (Or.inr (Or.inr h)))
                · exact Or.inr (Or.inr h)
                · exact Or.inr (Or.inl (Or.inr (Or.inl h)))
        · rw [if_neg p2]
          simp only [merge]
          obtain ⟨t, g1, g2, g3, g4⟩ := setRange_at (t := m.root) (q := join b r) (A := A') (a := b) (B := B)
            h.sep.srt h.lok h.heap (by rw [hAB]; simp)
          simp only [g1]
          refine ⟨_, rfl, ?_, ?_⟩
          · constructor
            · simp only [g2]
              refine Sep.append_iff.2 ⟨sA'.1, Sep.cons_iff.2 ⟨?_, sB, ?_⟩, ?_⟩
              · simp only [join]; omega
              · intro y hy
                have hy1 := d2 y hy
                simp only [join]
                cases B with
                | nil => simp at hy
                | cons a B' =>
                  simp only [startsAt, List.head?_cons, Rng.precedes, decide_eq_true_eq] at p2
                  rcases List.mem_cons.1 hy with rfl | hy
                  · omega
                  · have := (Sep.cons_iff.1 sB).2.2 y hy; have := d2 a (by simp); omega
              · intro x hx y hy
                have hxb := sA'.2.2 x hx b (by simp)
                rcases List.mem_cons.1 hy with rfl | hy
                · simpa only [join] using hxb
                · exact sAB x (by simp [hx]) y hy
            · exact g3
            · exact g4
            · simp only [g2]
              simp only [List.length_append, List.length_cons, List.length_nil] at hu ⊢; omega
            · simp only [g2, lenSum_append, lenSum, join]
              simp only [lenSum_append, lenSum] at htot; omega
            · exact hc
          · intro p
            simp only [g2]
            rw [hAB]
            simp only [Cov.append_iff, Cov.cons_iff, Cov.nil_iff, or_false, Rng.Has, join]
            have : (b.s ≤ p ∧ p < b.s + (b.n + r.n)) ↔
                (b.s ≤ p ∧ p < b.s + b.n) ∨ (r.s ≤ p ∧ p < r.s + r.n) := by omega
            rw [this]
            constructor
            · rintro (h | (h | h) | h)
              · exact Or.inl (Or.inl (Or.inl h))
              · exact Or.inl (Or.inl (Or.inr h))
              · exact Or.inr h
              · exact Or.inl (Or.inr h)
            · rintro (((h | h) | h) | h)
              · exact Or.inl h
              · exact Or.inr (Or.inl (Or.inl h))
              · exact Or.inr (Or.inr h)
              · exact Or.inr (Or.inl (Or.inr h))
    · rw [if_neg p1]
      have p1' : ∀ x ∈ A, x.s + x.n < r.s := by
        intro x hx
        have hx1 := d1 x hx
        cases hg : A.getLast? with
        | none => simp only [List.getLast?_eq_none_iff] at hg; subst hg; simp at hx
        | some b =>
          rw [hg] at p1
          simp only [endsAt, Rng.precedes, decide_eq_true_eq] at p1
          obtain ⟨A', rfl⟩ := List.getLast?_eq_some_iff.1 hg
          rcases List.mem_append.1 hx with hx | hx
          · have := (List.pairwise_append.1 sA.2).2.2 x hx b (by simp)
            have := hA0 b (by simp); omega
          · simp only [List.mem_singleton] at hx; subst hx; omega
      by_cases p2 : startsAt r B.head? = true
      · rw [if_pos p2]
        cases B with
        | nil => simp [startsAt] at p2
        | cons a B' =>
          simp only [startsAt, List.head?_cons, Rng.precedes, decide_eq_true_eq] at p2
          simp only [List.head?_cons, merge]
          have hsB := Sep.cons_iff.1 sB
          obtain ⟨t, g1, g2, g3, g4⟩ := setRange_at (t := m.root) (q := join r a) (A := A) (a := a) (B := B')
            h.sep.srt h.lok h.heap hAB
          simp only [g1]
          refine ⟨_, rfl, ?_, ?_⟩
          · constructor
            · simp only [g2]
              refine Sep.append_iff.2 ⟨sA, Sep.cons_iff.2 ⟨?_, hsB.2.1, ?_⟩, ?_⟩
              · simp only [join]; omega
              · intro y hy; have := hsB.2.2 y hy; simp only [join]; omega
              · intro x hx y hy
                rcases List.mem_cons.1 hy with rfl | hy
                · exact p1' x hx
                · exact sAB x hx y (by simp [hy])
            · exact g3
            · exact g4
            · simp only [g2]
              simp only [List.length_append, List.length_cons] at hu ⊢; omega
            · simp only [g2, lenSum_append, lenSum, join]
              simp only [lenSum_append, lenSum] at htot; omega
            · exact hc
          · intro p
            simp only [g2]
            rw [hAB]
            simp only [Cov.append_iff, Cov.cons_iff, Rng.Has, join]
            have : (r.s ≤ p ∧ p < r.s + (r.n + a.n)) ↔
                (r.s ≤ p ∧ p < r.s + r.n) ∨ (a.s ≤ p ∧ p < a.s + a.n) := by omega
            rw [this]
            constructor
            · rintro (h | (h | h) | h)
              · exact Or.inl (Or.inl h)
              · exact Or.inr h
              · exact Or.inl (Or.inr (Or.inl h))
              · exact Or.inl (Or.inr (Or.inr h))
            · rintro ((h | h | h) | h)
              · exact Or.inl h
              · exact Or.inr (Or.inl (Or.inr h))
              · exact Or.inr (Or.inr h)
              · exact Or.inr (Or.inl (Or.inl h))
      · rw [if_neg p2]
        have p2' : ∀ y ∈ B, r.s + r.n < y.s := by
          intro y hy
          have hy1 := d2 y hy
          cases B with
          | nil => simp at hy
          | cons a B' =>
            simp only [startsAt, List.head?_cons, Rng.precedes, decide_eq_true_eq] at p2
            rcases List.mem_cons.1 hy with rfl | hy
            · omega
            · have := (Sep.cons_iff.1 sB).2.2 y hy; have := d2 a (by simp); omega
        refine ⟨_, rfl, ?_⟩
        have hir := insertNode_ranges r (prioOf (nextRandom m.seed)) m.root h.sep.srt
        have f1 : (ranges m.root).filter (fun x => decide (x.s < r.s)) = A := by
          rw [hAB, List.filter_append,
            filter_all (A := A) (fun y hy => by
              have := p1' y hy; simp; omega),
            filter_none (A := B) (fun y hy => by have := p2' y hy; simp; omega)]
          simp
        have f2 : (ranges m.root).filter (fun x => decide (¬ x.s < r.s)) = B := by
          rw [hAB, List.filter_append,
            filter_none (A := A) (fun y hy => by
              have := p1' y hy; simp; omega),
            filter_all (A := B) (fun y hy => by have := p2' y hy; simp; omega)]
          simp
        rw [f1, f2] at hir
        constructor
        · constructor
          · simp only [getNode]
            rw [hir]
            refine Sep.append_iff.2 ⟨sA, Sep.cons_iff.2 ⟨hr, sB, p2'⟩, ?_⟩
            intro x hx y hy
            rcases List.mem_cons.1 hy with rfl | hy
            · exact p1' x hx
            · exact sAB x hx y hy
          · exact (insertNode_ok r _ m.root h.lok).1
          · exact (insertNode_heap r _ m.root h.heap).1
          · simp only [getNode]
            rw [hir]
            simp only [List.length_append, List.length_cons] at hu ⊢; omega
          · simp only [getNode]
            rw [hir]
            simp only [lenSum_append, lenSum] at htot ⊢; omega
          · simp only [getNode]
            split <;> omega
        · intro p
          simp only [getNode]
          rw [hir, hAB]
          simp only [Cov.append_iff, Cov.cons_iff]
          constructor
          · rintro (h | h | h)
            · exact Or.inl (Or.inl h)
            · exact Or.inr h
            · exact Or.inl (Or.inr h)
          · rintro ((h | h) | h)
            · exact Or.inl h
            · exact Or.inr (Or.inr h)
            · exact Or.inr (Or.inl h)

/-! ### Maximal runs -/

/-- In a separated list the run that starts at a range's start is that range. -/
theorem inRun_iff {A B : List Rng} {a : Rng} (h : Sep (A ++ a :: B)) (p : Nat) :
    InRun (Cov (A ++ a :: B)) a.s p ↔ a.Has p := by
  obtain ⟨s1, s2, s3, s4, s5⟩ := h.split
  constructor
  · rintro ⟨h1, h2⟩
    refine ⟨h1, ?_⟩
    apply Classical.byContradiction
    intro hn
    obtain ⟨x, hx, hx1, hx2⟩ := h2 (a.s + a.n) (by omega) (by omega)
    rcases List.mem_append.1 hx with hx | hx
    · have := s4 x hx; omega
    · rcases List.mem_cons.1 hx with rfl | hx
      · omega
      · have := s5 x hx; omega
  · rintro ⟨h1, h2⟩
    exact ⟨h1, fun q q1 q2 => ⟨a, by simp, q1, by omega⟩⟩

theorem startsRun_iff {L : List Rng} (h : Sep L) (k : Nat) : StartsRun (Cov L) k ↔ HasKey L k := by
  constructor
  · rintro ⟨⟨x, hx, h1, h2⟩, h3⟩
    by_cases hk : x.s = k
    · exact ⟨x, hx, hk⟩
    · exact absurd ⟨x, hx, by omega, by omega⟩ (h3 (k - 1) (by omega))
  · rintro ⟨x, hx, rfl⟩
    obtain ⟨A, B, rfl⟩ := List.append_of_mem hx
    obtain ⟨s1, s2, s3, s4, s5⟩ := h.split
    refine ⟨⟨x, hx, Nat.le_refl _, by omega⟩, ?_⟩
    rintro q hq ⟨y, hy, y1, y2⟩
    rcases List.mem_append.1 hy with hy | hy
    · have := s4 y hy; omega
    · rcases List.mem_cons.1 hy with rfl | hy
      · omega
      · have := s5 y hy; omega

theorem cov_remove {A B : List Rng} {a : Rng} (h : Sep (A ++ a :: B)) (p : Nat) :
    Cov (A ++ B) p ↔ Cov (A ++ a :: B) p ∧ ¬ a.Has p := by
  obtain ⟨s1, s2, s3, s4, s5⟩ := h.split
  rw [Cov.append_iff, Cov.append_iff, Cov.cons_iff]
  constructor
  · rintro (⟨x, hx, h1, h2⟩ | ⟨x, hx, h1, h2⟩)
    · have := s4 x hx
      exact ⟨Or.inl ⟨x, hx, h1, h2⟩, fun h => by unfold Rng.Has at h; omega⟩
    · have := s5 x hx
      exact ⟨Or.inr (Or.inr ⟨x, hx, h1, h2⟩), fun h => by unfold Rng.Has at h; omega⟩
  · rintro ⟨h | h | h, hn⟩
    · exact Or.inl h
    · exact absurd h hn
    · exact Or.inr h

/-- One step of the map is one step of the set. -/
theorem step_spec {m : HMap} (h : Inv m) {o : Op} (ho : o.OK) :
    (¬ specPre (Cov (ranges m.root)) o → step m o = none) ∧
    (specPre (Cov (ranges m.root)) o → ∃ m', step m o = some m' ∧ Inv m' ∧
      ∀ p, Cov (ranges m'.root) p ↔ specStep (Cov (ranges m.root)) o p) := by
  cases o with
  | insert r =>
    obtain ⟨h1, h2⟩ := insert_spec h ho
    refine ⟨fun hn => h1 ?_, fun hp => ?_⟩
    · apply Classical.byContradiction
      intro hc
      exact hn (fun p hp hcov => hc ⟨p, hp, hcov⟩)
    · obtain ⟨m', e, i, c⟩ := h2 hp
      exact ⟨m', e, i, c⟩
  | remove k =>
    simp only [specPre, startsRun_iff h.sep]
    refine ⟨fun hn => ?_, fun hk => ?_⟩
    · simp only [step, remove]
      rw [(lookup_spec k m.root).1 hn]
    · obtain ⟨a, ha, rfl⟩ := hk
      obtain ⟨A, B, e⟩ := List.append_of_mem ha
      obtain ⟨m', e1, e2, e3, _⟩ := remove_spec h e
      refine ⟨m', e1, e3, fun p => ?_⟩
      have hs := h.sep
      rw [e] at hs
      simp only [specStep, e2, e]
      rw [cov_remove hs, inRun_iff hs]

theorem Inv.run : ∀ (os : List Op) (m m' : HMap) (S : PSet), Inv m → (∀ p, Cov (ranges m.root) p ↔ S p) →
    (∀ o ∈ os, o.OK) → run m os = some m' → Inv m' ∧ ∀ p, Cov (ranges m'.root) p ↔ specRun S os p := by
  intro os
  induction os with
  | nil =>
    intro m m' S hi hS _ e
    simp only [HugeAddressMap.run, Option.some.injEq] at e
    subst e; exact ⟨hi, hS⟩
  | cons o os ih =>
    intro m m' S hi hS ho e
    have hSe : Cov (ranges m.root) = S := funext fun p => propext (hS p)
    rw [HugeAddressMap.run] at e
    obtain ⟨s1, s2⟩ := step_spec hi (ho o (by simp))
    by_cases hp : specPre (Cov (ranges m.root)) o
    · obtain ⟨m1, e1, i1, c1⟩ := s2 hp
      rw [e1] at e
      exact ih m1 m' (specStep S o) i1 (by rw [← hSe]; exact c1) (fun x hx => ho x (by simp [hx])) e
    · rw [s1 hp] at e; simp at e

end Verif.HugeAddressMap
