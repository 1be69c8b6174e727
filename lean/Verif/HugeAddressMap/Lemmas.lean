import Verif.HugeAddressMap.Spec
namespace Verif.HugeAddressMap

/-! ### Tree invariants -/

def LOK : Tree → Prop
  | .leaf => True
  | .node l x r => LOK l ∧ LOK r ∧ x.longest = max (max l.longest r.longest) x.r.n

theorem longest_node (l : Tree) (x : NodeData) (r : Tree) : (Tree.node l x r).longest = x.longest := rfl

def HeapLe (q : Int) : Tree → Prop
  | .leaf => True
  | .node _ x _ => x.prio ≤ q

def Heap : Tree → Prop
  | .leaf => True
  | .node l x r => HeapLe x.prio l ∧ HeapLe x.prio r ∧ Heap l ∧ Heap r

def Srt (L : List Rng) : Prop := L.Pairwise (fun a b => a.s < b.s)

theorem Srt.split {A B : List Rng} {x : Rng} (h : Srt (A ++ x :: B)) :
    Srt A ∧ Srt B ∧ (∀ a ∈ A, a.s < x.s) ∧ (∀ b ∈ B, x.s < b.s) ∧ (∀ a ∈ A, ∀ b ∈ B, a.s < b.s) := by
  have h' := List.pairwise_append.1 h
  have h2 := List.pairwise_cons.1 h'.2.1
  exact ⟨h'.1, h2.2, fun a ha => h'.2.2 a ha x (by simp), h2.1,
    fun a ha b hb => h'.2.2 a ha b (by simp [hb])⟩

theorem Sep.srt {L : List Rng} (h : Sep L) : Srt L :=
  h.2.imp (fun hab => by omega)

theorem filter_all {p : Rng → Bool} {A : List Rng} (h : ∀ a ∈ A, p a = true) : A.filter p = A :=
  List.filter_eq_self.2 h

theorem filter_none {p : Rng → Bool} {A : List Rng} (h : ∀ a ∈ A, p a = false) : A.filter p = [] :=
  List.filter_eq_nil_iff.2 (fun a ha => by simp [h a ha])

/-! ### split -/

theorem fix_ranges (l : Tree) (x : NodeData) (r : Tree) : ranges (fix l x r) = ranges l ++ x.r :: ranges r := rfl

theorem split_ranges (p : Nat) : ∀ t, Srt (ranges t) →
    ranges (split p t).1 = (ranges t).filter (fun x => decide (x.s < p)) ∧
    ranges (split p t).2 = (ranges t).filter (fun x => decide (¬ x.s < p)) := by
  intro t
  induction t with
  | leaf => intro _; exact ⟨rfl, rfl⟩
  | node l x r ihl ihr =>
    intro h
    simp only [ranges] at h
    obtain ⟨h1, h2, h3, h4, _⟩ := h.split
    rw [split]
    by_cases hx : x.r.s < p
    · rw [if_pos hx]
      obtain ⟨i1, i2⟩ := ihr h2
      have e1 : (ranges l).filter (fun x => decide (x.s < p)) = ranges l :=
        filter_all (fun a ha => by have := h3 a ha; simp; omega)
      have e2 : (ranges l).filter (fun x => decide (¬ x.s < p)) = [] :=
        filter_none (fun a ha => by have := h3 a ha; simp; omega)
      simp only [fix_ranges, i1, i2, ranges, List.filter_append, List.filter_cons, e1, e2]
      simp [hx]
    · rw [if_neg hx]
      obtain ⟨i1, i2⟩ := ihl h1
      have e1 : (ranges r).filter (fun x => decide (x.s < p)) = [] :=
        filter_none (fun a ha => by have := h4 a ha; simp; omega)
      have e2 : (ranges r).filter (fun x => decide (¬ x.s < p)) = ranges r :=
        filter_all (fun a ha => by have := h4 a ha; simp; omega)
      simp only [fix_ranges, i1, i2, ranges, List.filter_append, List.filter_cons, e1, e2]
      simp [hx]

theorem split_ok (p : Nat) : ∀ t, LOK t →
    LOK (split p t).1 ∧ LOK (split p t).2 ∧ max (split p t).1.longest (split p t).2.longest = t.longest := by
  intro t
  induction t with
  | leaf => intro _; exact ⟨trivial, trivial, rfl⟩
  | node l x r ihl ihr =>
    rintro ⟨h1, h2, h3⟩
    rw [split]
    by_cases hx : x.r.s < p
    · rw [if_pos hx]
      obtain ⟨a, b, c⟩ := ihr h2
      refine ⟨⟨h1, a, rfl⟩, b, ?_⟩
      simp only [fix, longest_node]
      omega
    · rw [if_neg hx]
      obtain ⟨a, b, c⟩ := ihl h1
      refine ⟨a, ⟨b, h2, rfl⟩, ?_⟩
      simp only [fix, longest_node]
      omega

theorem HeapLe.mono {a b : Int} (hab : a ≤ b) {t : Tree} (h : HeapLe a t) : HeapLe b t := by
  cases t with
  | leaf => trivial
  | node l x r => exact Int.le_trans h hab

theorem split_heap (p : Nat) : ∀ t, Heap t →
    (Heap (split p t).1 ∧ Heap (split p t).2) ∧
    ∀ q, HeapLe q t → HeapLe q (split p t).1 ∧ HeapLe q (split p t).2 := by
  intro t
  induction t with
  | leaf => intro _; exact ⟨⟨trivial, trivial⟩, fun _ _ => ⟨trivial, trivial⟩⟩
  | node l x r ihl ihr =>
    rintro ⟨h1, h2, h3, h4⟩
    rw [split]
    by_cases hx : x.r.s < p
    · rw [if_pos hx]
      obtain ⟨⟨a, b⟩, c⟩ := ihr h4
      exact ⟨⟨⟨h1, (c _ h2).1, h3, a⟩, b⟩, fun q hq => ⟨hq, ((c _ h2).2).mono hq⟩⟩
    · rw [if_neg hx]
      obtain ⟨⟨a, b⟩, c⟩ := ihl h3
      exact ⟨⟨a, ⟨(c _ h1).2, h2, b, h4⟩⟩, fun q hq => ⟨((c _ h1).1).mono hq, hq⟩⟩

/-! ### insertNode -/

theorem insertNode_ranges (r : Rng) (prio : Int) : ∀ t, Srt (ranges t) →
    ranges (insertNode r prio t).1 = (ranges t).filter (fun x => decide (x.s < r.s)) ++
      r :: (ranges t).filter (fun x => decide (¬ x.s < r.s)) := by
  intro t
  induction t with
  | leaf => intro _; rfl
  | node a x b iha ihb =>
    intro h
    have h0 := h
    simp only [ranges] at h
    obtain ⟨h1, h2, h3, h4, _⟩ := h.split
    rw [insertNode]
    by_cases hp : x.prio ≥ prio
    · rw [if_pos hp]
      by_cases hx : x.r.s < r.s
      · simp only [if_pos hx]
        have i := ihb h2
        have e1 : (ranges a).filter (fun x => decide (x.s < r.s)) = ranges a :=
          filter_all (fun y hy => by have := h3 y hy; simp; omega)
        have e2 : (ranges a).filter (fun x => decide (¬ x.s < r.s)) = [] :=
          filter_none (fun y hy => by have := h3 y hy; simp; omega)
        have hr : ∀ q : Tree × Bool, ranges (if q.2 then fix a { x with longest := max x.longest r.n } q.1
            else .node a { x with longest := max x.longest r.n } q.1) = ranges a ++ x.r :: ranges q.1 := by
          intro q; cases q.2 <;> rfl
        rw [hr, i]
        simp only [ranges, List.filter_append, List.filter_cons, e1, e2]
        simp [hx]
      · simp only [if_neg hx]
        have i := iha h1
        have e1 : (ranges b).filter (fun x => decide (x.s < r.s)) = [] :=
          filter_none (fun y hy => by have := h4 y hy; simp; omega)
        have e2 : (ranges b).filter (fun x => decide (¬ x.s < r.s)) = ranges b :=
          filter_all (fun y hy => by have := h4 y hy; simp; omega)
        have hr : ∀ q : Tree × Bool, ranges (if q.2 then fix q.1 { x with longest := max x.longest r.n } b
            else .node q.1 { x with longest := max x.longest r.n } b) = ranges q.1 ++ x.r :: ranges b := by
          intro q; cases q.2 <;> rfl
        rw [hr, i]
        simp only [ranges, List.filter_append, List.filter_cons, e1, e2]
        simp [hx]
    · rw [if_neg hp]
      obtain ⟨s1, s2⟩ := split_ranges r.s _ h0
      simp only [fix_ranges, s1, s2]

theorem insertNode_ok (r : Rng) (prio : Int) : ∀ t, LOK t →
    LOK (insertNode r prio t).1 ∧ (insertNode r prio t).1.longest = max t.longest r.n := by
  intro t
  induction t with
  | leaf => intro _; refine ⟨⟨trivial, trivial, ?_⟩, ?_⟩ <;> simp [Tree.longest, insertNode]
  | node a x b iha ihb =>
    intro h
    have h0 := h
    obtain ⟨h1, h2, h3⟩ := h
    rw [insertNode]
    by_cases hp : x.prio ≥ prio
    · rw [if_pos hp]
      by_cases hx : x.r.s < r.s
      · simp only [if_pos hx]
        obtain ⟨i1, i2⟩ := ihb h2
        generalize insertNode r prio b = q at *
        obtain ⟨q1, q2⟩ := q
        cases q2
        · refine ⟨⟨h1, i1, ?_⟩, rfl⟩
          simp only [] at i2 ⊢; omega
        · refine ⟨⟨h1, i1, rfl⟩, ?_⟩
          simp only [if_true, fix, longest_node] at i2 ⊢; omega
      · simp only [if_neg hx]
        obtain ⟨i1, i2⟩ := iha h1
        generalize insertNode r prio a = q at *
        obtain ⟨q1, q2⟩ := q
        cases q2
        · refine ⟨⟨i1, h2, ?_⟩, rfl⟩
          simp only [] at i2 ⊢; omega
        · refine ⟨⟨i1, h2, rfl⟩, ?_⟩
          simp only [if_true, fix, longest_node] at i2 ⊢; omega
    · rw [if_neg hp]
      obtain ⟨s1, s2, s3⟩ := split_ok r.s _ h0
      refine ⟨⟨s1, s2, rfl⟩, ?_⟩
      simp only [fix, longest_node] at s3 ⊢
      omega

theorem insertNode_heap (r : Rng) (prio : Int) : ∀ t, Heap t →
    Heap (insertNode r prio t).1 ∧ ∀ q, HeapLe q t → prio ≤ q → HeapLe q (insertNode r prio t).1 := by
  intro t
  induction t with
  | leaf => intro _; exact ⟨⟨trivial, trivial, trivial, trivial⟩, fun q _ h => h⟩
  | node a x b iha ihb =>
    intro h
    have h0 := h
    obtain ⟨h1, h2, h3, h4⟩ := h
    rw [insertNode]
    by_cases hp : x.prio ≥ prio
    · rw [if_pos hp]
      by_cases hx : x.r.s < r.s
      · simp only [if_pos hx]
        obtain ⟨i1, i2⟩ := ihb h4
        generalize insertNode r prio b = q at *
        obtain ⟨q1, q2⟩ := q
        cases q2 <;> exact ⟨⟨h1, i2 _ h2 hp, h3, i1⟩, fun q hq _ => hq⟩
      · simp only [if_neg hx]
        obtain ⟨i1, i2⟩ := iha h3
        generalize insertNode r prio a = q at *
        obtain ⟨q1, q2⟩ := q
        cases q2 <;> exact ⟨⟨i2 _ h1 hp, h2, i1, h4⟩, fun q hq _ => hq⟩
    · rw [if_neg hp]
      obtain ⟨⟨s1, s2⟩, s3⟩ := split_heap r.s _ h0
      obtain ⟨c1, c2⟩ := s3 x.prio (Int.le_refl _)
      have hlt : x.prio ≤ prio := by omega
      exact ⟨⟨c1.mono hlt, c2.mono hlt, s1, s2⟩, fun q _ hq => hq⟩

/-! ### meld -/

theorem meld_ranges : ∀ (d : Nat) (t b : Tree), t.nodes + b.nodes ≤ d →
    ((∀ x ∈ ranges t, ∀ y ∈ ranges b, x.s < y.s) → ranges (meld t b) = ranges t ++ ranges b) ∧
    ((∀ x ∈ ranges t, ∀ y ∈ ranges b, y.s < x.s) → ranges (meld t b) = ranges b ++ ranges t) := by
  intro d
  induction d with
  | zero =>
    intro t b hd
    cases t with
    | node => simp [Tree.nodes] at hd
    | leaf =>
      cases b with
      | node => simp [Tree.nodes] at hd
      | leaf => simp [meld, ranges]
  | succ d ih =>
    intro t b hd
    cases b with
    | leaf => simp [meld, ranges]
    | node lb xb rb =>
      cases t with
      | leaf => simp [meld, ranges]
      | node lt xt rt =>
        simp only [Tree.nodes] at hd
        rw [meld]
        have i1 := ih lb (.node lt xt rt) (by simp only [Tree.nodes]; omega)
        have i2 := ih rb (.node lt xt rt) (by simp only [Tree.nodes]; omega)
        have i3 := ih lt (.node lb xb rb) (by simp only [Tree.nodes]; omega)
        have i4 := ih rt (.node lb xb rb) (by simp only [Tree.nodes]; omega)
        have mt : xt.r ∈ ranges (.node lt xt rt) := by simp [ranges]
        have mb : xb.r ∈ ranges (.node lb xb rb) := by simp [ranges]
        constructor
        · intro h
          have h0 := h _ mt _ mb
          by_cases hp : xt.prio < xb.prio
          · rw [if_pos hp, if_pos h0]
            have := i1.2 (fun x hx y hy => h y hy x (by simp [ranges, hx]))
            simp only [ranges] at this ⊢
            rw [this]; simp
          · rw [if_neg hp, if_neg (by omega)]
            have := i4.1 (fun x hx y hy => h x (by simp [ranges, hx]) y hy)
            simp only [ranges] at this ⊢
            rw [this]; simp
        · intro h
          have h0 := h _ mt _ mb
          by_cases hp : xt.prio < xb.prio
          · rw [if_pos hp, if_neg (by omega)]
            have := i2.1 (fun x hx y hy => h y hy x (by simp [ranges, hx]))
            simp only [ranges] at this ⊢
            rw [this]; simp
          · rw [if_neg hp, if_pos h0]
            have := i3.2 (fun x hx y hy => h x (by simp [ranges, hx]) y hy)
            simp only [ranges] at this ⊢
            rw [this]; simp

theorem meld_ok : ∀ (d : Nat) (t b : Tree), t.nodes + b.nodes ≤ d → LOK t → LOK b →
    LOK (meld t b) ∧ (meld t b).longest = max t.longest b.longest := by
  intro d
  induction d with
  | zero =>
    intro t b hd _ _
    cases t with
    | node => simp [Tree.nodes] at hd
    | leaf =>
      cases b with
      | node => simp [Tree.nodes] at hd
      | leaf => simp [meld, LOK, Tree.longest]
  | succ d ih =>
    intro t b hd ht hb
    cases b with
    | leaf => rw [meld]; exact ⟨ht, by simp [Tree.longest]⟩
    | node lb xb rb =>
      cases t with
      | leaf => rw [meld]; exact ⟨hb, by simp [Tree.longest]⟩
      | node lt xt rt =>
        simp only [Tree.nodes] at hd
        rw [meld]
        obtain ⟨t1, t2, t3⟩ := id ht
        obtain ⟨b1, b2, b3⟩ := id hb
        by_cases hp : xt.prio < xb.prio
        · rw [if_pos hp]
          by_cases hs : xt.r.s < xb.r.s
          · rw [if_pos hs]
            obtain ⟨a1, a2⟩ := ih lb (.node lt xt rt) (by simp only [Tree.nodes]; omega) b1 ht
            refine ⟨⟨a1, b2, ?_⟩, ?_⟩ <;> simp only [longest_node] at a2 ⊢ <;> omega
          · rw [if_neg hs]
            obtain ⟨a1, a2⟩ := ih rb (.node lt xt rt) (by simp only [Tree.nodes]; omega) b2 ht
            refine ⟨⟨b1, a1, ?_⟩, ?_⟩ <;> simp only [longest_node] at a2 ⊢ <;> omega
        · rw [if_neg hp]
          by_cases hs : xb.r.s < xt.r.s
          · rw [if_pos hs]
            obtain ⟨a1, a2⟩ := ih lt (.node lb xb rb) (by simp only [Tree.nodes]; omega) t1 hb
            refine ⟨⟨a1, t2, ?_⟩, ?_⟩ <;> simp only [longest_node] at a2 ⊢ <;> omega
          · rw [if_neg hs]
            obtain ⟨a1, a2⟩ := ih rt (.node lb xb rb) (by simp only [Tree.nodes]; omega) t2 hb
            refine ⟨⟨t1, a1, ?_⟩, ?_⟩ <;> simp only [longest_node] at a2 ⊢ <;> omega

theorem meld_heap : ∀ (d : Nat) (t b : Tree), t.nodes + b.nodes ≤ d → Heap t → Heap b →
    Heap (meld t b) ∧ ∀ q, HeapLe q t → HeapLe q b → HeapLe q (meld t b) := by
  intro d
  induction d with
  | zero =>
    intro t b hd _ _
    cases t with
    | node => simp [Tree.nodes] at hd
    | leaf =>
      cases b with
      | node => simp [Tree.nodes] at hd
      | leaf => simp [meld, Heap, HeapLe]
  | succ d ih =>
    intro t b hd ht hb
    cases b with
    | leaf => rw [meld]; exact ⟨ht, fun q h _ => h⟩
    | node lb xb rb =>
      cases t with
      | leaf => rw [meld]; exact ⟨hb, fun q _ h => h⟩
      | node lt xt rt =>
        simp only [Tree.nodes] at hd
        rw [meld]
        obtain ⟨t1, t2, t3, t4⟩ := id ht
        obtain ⟨b1, b2, b3, b4⟩ := id hb
        by_cases hp : xt.prio < xb.prio
        · rw [if_pos hp]
          have hle : HeapLe xb.prio (.node lt xt rt) := by simp only [HeapLe]; omega
          by_cases hs : xt.r.s < xb.r.s
          · rw [if_pos hs]
            obtain ⟨a1, a2⟩ := ih lb (.node lt xt rt) (by simp only [Tree.nodes]; omega) b3 ht
            exact ⟨⟨a2 _ b1 hle, b2, a1, b4⟩, fun q _ h => h⟩
          · rw [if_neg hs]
            obtain ⟨a1, a2⟩ := ih rb (.node lt xt rt) (by simp only [Tree.nodes]; omega) b4 ht
            exact ⟨⟨b1, a2 _ b2 hle, b3, a1⟩, fun q _ h => h⟩
        · rw [if_neg hp]
          have hle : HeapLe xt.prio (.node lb xb rb) := by simp only [HeapLe]; omega
          by_cases hs : xb.r.s < xt.r.s
          · rw [if_pos hs]
            obtain ⟨a1, a2⟩ := ih lt (.node lb xb rb) (by simp only [Tree.nodes]; omega) t3 hb
            exact ⟨⟨a2 _ t1 hle, t2, a1, t4⟩, fun q h _ => h⟩
          · rw [if_neg hs]
            obtain ⟨a1, a2⟩ := ih rt (.node lb xb rb) (by simp only [Tree.nodes]; omega) t4 hb
            exact ⟨⟨t1, a2 _ t2 hle, t3, a1⟩, fun q h _ => h⟩

/-! ### removeAt, setRange, lookup -/

/-- Some held range starts at `k`. -/
def HasKey (L : List Rng) (k : Nat) : Prop := ∃ r ∈ L, r.s = k

theorem hasKey_node {l r : Tree} {x : NodeData} {k : Nat} :
    HasKey (ranges (.node l x r)) k ↔ HasKey (ranges l) k ∨ x.r.s = k ∨ HasKey (ranges r) k := by
  unfold HasKey
  simp only [ranges, List.mem_append, List.mem_cons]
  constructor
  · rintro ⟨q, h | h | h, e⟩
    · exact Or.inl ⟨q, h, e⟩
    · subst h; exact Or.inr (Or.inl e)
    · exact Or.inr (Or.inr ⟨q, h, e⟩)
  · rintro (⟨q, h, e⟩ | e | ⟨q, h, e⟩)
    · exact ⟨q, Or.inl h, e⟩
    · exact ⟨x.r, Or.inr (Or.inl rfl), e⟩
    · exact ⟨q, Or.inr (Or.inr h), e⟩

theorem removeAt_spec (k : Nat) : ∀ t, Srt (ranges t) → LOK t → Heap t →
    (¬ HasKey (ranges t) k → removeAt k t = none) ∧
    (HasKey (ranges t) k → ∃ t', removeAt k t = some t' ∧
      ranges t' = (ranges t).filter (fun x => decide (x.s ≠ k)) ∧ LOK t' ∧ Heap t' ∧
      ∀ q, HeapLe q t → HeapLe q t') := by
  intro t
  induction t with
  | leaf =>
    intro _ _ _
    refine ⟨fun _ => rfl, ?_⟩
    rintro ⟨r, hr, _⟩; simp [ranges] at hr
  | node l x r ihl ihr =>
    intro hs hl hh
    have hs0 := hs
    simp only [ranges] at hs
    obtain ⟨s1, s2, s3, s4, s5⟩ := hs.split
    obtain ⟨l1, l2, l3⟩ := id hl
    obtain ⟨h1, h2, h3, h4⟩ := id hh
    obtain ⟨il1, il2⟩ := ihl s1 l1 h3
    obtain ⟨ir1, ir2⟩ := ihr s2 l2 h4
    rw [removeAt]
    by_cases hx : x.r.s = k
    · rw [if_pos hx]
      refine ⟨fun hn => absurd (hasKey_node.2 (Or.inr (Or.inl hx))) hn, fun _ => ?_⟩
      obtain ⟨m1, _⟩ := meld_ranges _ l r (Nat.le_refl _)
      obtain ⟨m2, _⟩ := meld_ok _ l r (Nat.le_refl _) l1 l2
      obtain ⟨m3, m4⟩ := meld_heap _ l r (Nat.le_refl _) h3 h4
      refine ⟨_, rfl, ?_, m2, m3, fun q hq => m4 q (h1.mono hq) (h2.mono hq)⟩
      rw [m1 s5]
      have e1 : (ranges l).filter (fun x => decide (x.s ≠ k)) = ranges l :=
        filter_all (fun y hy => by have := s3 y hy; simp; omega)
      have e2 : (ranges r).filter (fun x => decide (x.s ≠ k)) = ranges r :=
        filter_all (fun y hy => by have := s4 y hy; simp; omega)
      simp only [ranges, List.filter_append, List.filter_cons, e1, e2]
      simp [hx]
    · rw [if_neg hx]
      by_cases hkl : HasKey (ranges l) k
      · obtain ⟨t', e, e2, o1, o2, o3⟩ := il2 hkl
        rw [e]
        refine ⟨fun hn => absurd (hasKey_node.2 (Or.inl hkl)) hn, fun _ => ?_⟩
        refine ⟨_, rfl, ?_, ⟨o1, l2, rfl⟩, ⟨o3 _ h1, h2, o2, h4⟩, fun q hq => hq⟩
        obtain ⟨y, hy, hyk⟩ := hkl
        have e3 : (ranges r).filter (fun x => decide (x.s ≠ k)) = ranges r :=
          filter_all (fun z hz => by have := s5 y hy z hz; simp; omega)
        simp only [fix_ranges, e2, ranges, List.filter_append, List.filter_cons, e3]
        simp [hx]
      · rw [il1 hkl]
        by_cases hkr : HasKey (ranges r) k
        · obtain ⟨t', e, e2, o1, o2, o3⟩ := ir2 hkr
          rw [e]
          refine ⟨fun hn => absurd (hasKey_node.2 (Or.inr (Or.inr hkr))) hn, fun _ => ?_⟩
          refine ⟨_, rfl, ?_, ⟨l1, o1, rfl⟩, ⟨h1, o3 _ h2, h3, o2⟩, fun q hq => hq⟩
          obtain ⟨y, hy, hyk⟩ := hkr
          have e3 : (ranges l).filter (fun x => decide (x.s ≠ k)) = ranges l :=
            filter_all (fun z hz => by have := s5 z hz y hy; simp; omega)
          simp only [fix_ranges, e2, ranges, List.filter_append, List.filter_cons, e3]
          simp [hx]
        · rw [ir1 hkr]
          refine ⟨fun _ => rfl, fun h => ?_⟩
          rcases hasKey_node.1 h with h | h | h
          · exact absurd h hkl
          · exact absurd h hx
          · exact absurd h hkr

theorem map_id' {A : List Rng} {f : Rng → Rng} (h : ∀ a ∈ A, f a = a) : A.map f = A := by
  induction A with
  | nil => rfl
  | cons a A ih =>
    simp only [List.map_cons, h a (by simp), ih (fun b hb => h b (by simp [hb]))]

theorem setRange_spec (k : Nat) (q : Rng) : ∀ t, Srt (ranges t) → LOK t → Heap t →
    (¬ HasKey (ranges t) k → setRange k q t = none) ∧
    (HasKey (ranges t) k → ∃ t', setRange k q t = some t' ∧
      ranges t' = (ranges t).map (fun x => if x.s = k then q else x) ∧ LOK t' ∧ Heap t' ∧
      ∀ q, HeapLe q t → HeapLe q t') := by
  intro t
  induction t with
  | leaf =>
    intro _ _ _
    refine ⟨fun _ => rfl, ?_⟩
    rintro ⟨r, hr, _⟩; simp [ranges] at hr
  | node l x r ihl ihr =>
    intro hs hl hh
    simp only [ranges] at hs
    obtain ⟨s1, s2, s3, s4, s5⟩ := hs.split
    obtain ⟨l1, l2, l3⟩ := id hl
    obtain ⟨h1, h2, h3, h4⟩ := id hh
    obtain ⟨il1, il2⟩ := ihl s1 l1 h3
    obtain ⟨ir1, ir2⟩ := ihr s2 l2 h4
    rw [setRange]
    by_cases hx : x.r.s = k
    · rw [if_pos hx]
      refine ⟨fun hn => absurd (hasKey_node.2 (Or.inr (Or.inl hx))) hn, fun _ => ?_⟩
      refine ⟨_, rfl, ?_, ⟨l1, l2, rfl⟩, ⟨h1, h2, h3, h4⟩, fun q hq => hq⟩
      have e1 : (ranges l).map (fun x => if x.s = k then q else x) = ranges l :=
        map_id' (fun y hy => by have := s3 y hy; rw [if_neg (by omega)])
      have e2 : (ranges r).map (fun x => if x.s = k then q else x) = ranges r :=
        map_id' (fun y hy => by have := s4 y hy; rw [if_neg (by omega)])
      simp only [fix_ranges, ranges, List.map_append, List.map_cons, e1, e2, if_pos hx]
    · rw [if_neg hx]
      by_cases hkl : HasKey (ranges l) k
      · obtain ⟨t', e, e2, o1, o2, o3⟩ := il2 hkl
        rw [e]
        refine ⟨fun hn => absurd (hasKey_node.2 (Or.inl hkl)) hn, fun _ => ?_⟩
        refine ⟨_, rfl, ?_, ⟨o1, l2, rfl⟩, ⟨o3 _ h1, h2, o2, h4⟩, fun q hq => hq⟩
        obtain ⟨y, hy, hyk⟩ := hkl
        have e3 : (ranges r).map (fun x => if x.s = k then q else x) = ranges r :=
          map_id' (fun z hz => by have := s5 y hy z hz; rw [if_neg (by omega)])
        simp only [fix_ranges, e2, ranges, List.map_append, List.map_cons, e3, if_neg hx]
      · rw [il1 hkl]
        by_cases hkr : HasKey (ranges r) k
        · obtain ⟨t', e, e2, o1, o2, o3⟩ := ir2 hkr
          rw [e]
          refine ⟨fun hn => absurd (hasKey_node.2 (Or.inr (Or.inr hkr))) hn, fun _ => ?_⟩
          refine ⟨_, rfl, ?_, ⟨l1, o1, rfl⟩, ⟨h1, o3 _ h2, h3, o2⟩, fun q hq => hq⟩
          obtain ⟨y, hy, hyk⟩ := hkr
          have e3 : (ranges l).map (fun x => if x.s = k then q else x) = ranges l :=
            map_id' (fun z hz => by have := s5 z hz y hy; rw [if_neg (by omega)])
          simp only [fix_ranges, e2, ranges, List.map_append, List.map_cons, e3, if_neg hx]
        · rw [ir1 hkr]
          refine ⟨fun _ => rfl, fun h => ?_⟩
          rcases hasKey_node.1 h with h | h | h
          · exact absurd h hkl
          · exact absurd h hx
          · exact absurd h hkr

theorem lookup_spec (k : Nat) : ∀ t,
    (¬ HasKey (ranges t) k → lookup k t = none) ∧
    (HasKey (ranges t) k → ∃ r ∈ ranges t, r.s = k ∧ lookup k t = some r) := by
  intro t
  induction t with
  | leaf =>
    refine ⟨fun _ => rfl, ?_⟩
    rintro ⟨r, hr, _⟩; simp [ranges] at hr
  | node l x r ihl ihr =>
    rw [lookup]
    by_cases hx : x.r.s = k
    · rw [if_pos hx]
      exact ⟨fun hn => absurd (hasKey_node.2 (Or.inr (Or.inl hx))) hn,
        fun _ => ⟨x.r, by simp [ranges], hx, rfl⟩⟩
    · rw [if_neg hx]
      by_cases hkl : HasKey (ranges l) k
      · obtain ⟨y, hy, e1, e2⟩ := ihl.2 hkl
        rw [e2]
        exact ⟨fun hn => absurd (hasKey_node.2 (Or.inl hkl)) hn,
          fun _ => ⟨y, by simp [ranges, hy], e1, rfl⟩⟩
      · rw [ihl.1 hkl]
        simp only []
        refine ⟨fun hn => ihr.1 (fun h => hn (hasKey_node.2 (Or.inr (Or.inr h)))), fun h => ?_⟩
        rcases hasKey_node.1 h with h | h | h
        · exact absurd h hkl
        · exact absurd h hx
        · obtain ⟨y, hy, e1, e2⟩ := ihr.2 h
          exact ⟨y, by simp [ranges, hy], e1, e2⟩

/-! ### first, nextOf, pred -/

theorem first_eq : ∀ t, first t = (ranges t).head? := by
  intro t
  induction t with
  | leaf => rfl
  | node l x r ihl _ =>
    cases l with
    | leaf => rfl
    | node a y b =>
      rw [first, ihl]
      · simp only [ranges]
        cases ranges a <;> rfl
      · intro h; cases h

theorem nextOf_spec (k : Nat) : ∀ t up, Srt (ranges t) →
    (¬ HasKey (ranges t) k → nextOf k t up = none) ∧
    (HasKey (ranges t) k →
      nextOf k t up = some (((ranges t).filter (fun x => decide (k < x.s))).head?.or up)) := by
  intro t
  induction t with
  | leaf =>
    intro up _
    refine ⟨fun _ => rfl, ?_⟩
    rintro ⟨r, hr, _⟩; simp [ranges] at hr
  | node l x r ihl ihr =>
    intro up hs
    simp only [ranges] at hs
    obtain ⟨s1, s2, s3, s4, s5⟩ := hs.split
    obtain ⟨il1, il2⟩ := ihl (some x.r) s1
    obtain ⟨ir1, ir2⟩ := ihr up s2
    rw [nextOf]
    by_cases hx : x.r.s = k
    · rw [if_pos hx]
      refine ⟨fun hn => absurd (hasKey_node.2 (Or.inr (Or.inl hx))) hn, fun _ => ?_⟩
      have e1 : (ranges l).filter (fun x => decide (k < x.s)) = [] :=
        filter_none (fun y hy => by have := s3 y hy; simp; omega)
      have e2 : (ranges r).filter (fun x => decide (k < x.s)) = ranges r :=
        filter_all (fun y hy => by have := s4 y hy; simp; omega)
      simp only [ranges, List.filter_append, List.filter_cons, e1, e2, List.nil_append]
      rw [if_neg (by simp; omega), ← first_eq]
    · rw [if_neg hx]
      by_cases hkl : HasKey (ranges l) k
      · rw [il2 hkl]
        refine ⟨fun hn => absurd (hasKey_node.2 (Or.inl hkl)) hn, fun _ => ?_⟩
        obtain ⟨y, hy, hyk⟩ := hkl
        have hkx : k < x.r.s := by have := s3 y hy; omega
        simp only [ranges, List.filter_append, List.filter_cons]
        rw [if_pos (by simpa using hkx)]
        cases (ranges l).filter (fun x => decide (k < x.s)) <;> simp
      · rw [il1 hkl]
        simp only []
        refine ⟨fun hn => ir1 (fun h => hn (hasKey_node.2 (Or.inr (Or.inr h)))), fun h => ?_⟩
        rcases hasKey_node.1 h with h | h | h
        · exact absurd h hkl
        · exact absurd h hx
        · rw [ir2 h]
          obtain ⟨y, hy, hyk⟩ := h
          have e1 : (ranges l).filter (fun x => decide (k < x.s)) = [] :=
            filter_none (fun z hz => by have := s5 z hz y hy; simp; omega)
          have := s4 y hy
          simp only [ranges, List.filter_append, List.filter_cons, e1, List.nil_append]
          rw [if_neg (by simp; omega)]

theorem contains_iff (r : Rng) (p : Nat) : r.contains p = true ↔ r.Has p := by
  unfold Rng.contains Rng.Has
  simp only [Bool.and_eq_true, decide_eq_true_eq]
  omega

theorem Sep.split {A B : List Rng} {x : Rng} (h : Sep (A ++ x :: B)) :
    Sep A ∧ Sep B ∧ 0 < x.n ∧ (∀ a ∈ A, a.s + a.n < x.s) ∧ (∀ b ∈ B, x.s + x.n < b.s) := by
  have h' := List.pairwise_append.1 h.2
  have h2 := List.pairwise_cons.1 h'.2.1
  exact ⟨⟨fun a ha => h.1 a (by simp [ha]), h'.1⟩, ⟨fun b hb => h.1 b (by simp [hb]), h2.2⟩,
    h.1 x (by simp), fun a ha => h'.2.2 a ha x (by simp), h2.1⟩

theorem pred_spec (p : Nat) : ∀ t best, Sep (ranges t) →
    pred p t best = (((ranges t).filter (fun x => decide (x.s ≤ p))).getLast?).or best := by
  intro t
  induction t with
  | leaf => intro best _; rfl
  | node l x r ihl ihr =>
    intro best hs
    simp only [ranges] at hs
    obtain ⟨s1, s2, s3, s4, s5⟩ := hs.split
    rw [pred]
    by_cases hc : x.r.contains p = true
    · rw [if_pos hc]
      have := (contains_iff _ _).1 hc
      unfold Rng.Has at this
      have e2 : (ranges r).filter (fun x => decide (x.s ≤ p)) = [] :=
        filter_none (fun y hy => by have := s5 y hy; simp; omega)
      simp only [ranges, List.filter_append, List.filter_cons, e2]
      rw [if_pos (by simp; omega)]
      simp
    · rw [if_neg hc]
      by_cases hlt : p < x.r.s
      · rw [if_pos hlt, ihl best s1]
        have e2 : (ranges r).filter (fun x => decide (x.s ≤ p)) = [] :=
          filter_none (fun y hy => by have := s5 y hy; simp; omega)
        simp only [ranges, List.filter_append, List.filter_cons, e2]
        rw [if_neg (by simp; omega)]
        simp
      · rw [if_neg hlt, ihr (some x.r) s2]
        simp only [ranges, List.filter_append, List.filter_cons]
        rw [if_pos (by simp; omega), List.getLast?_append, List.getLast?_cons]
        cases (ranges r).filter (fun x => decide (x.s ≤ p)) with
        | nil => simp
        | cons a A => simp [List.getLast?_cons]

end Verif.HugeAddressMap
