import Verif.PageMap.Lemmas
namespace Verif.PageMap

theorem scanLeaf_spec (leaf : Leaf) : ∀ r j,
    match scanLeaf leaf r j with
    | some x => j ≤ x ∧ x < j + r ∧ unpackSpan (leaf.packed x) ≠ 0 ∧
        ∀ y, j ≤ y → y < x → unpackSpan (leaf.packed y) = 0
    | none => ∀ y, j ≤ y → y < j + r → unpackSpan (leaf.packed y) = 0 := by
  intro r
  induction r with
  | zero => intro j; simp only [scanLeaf]; intro y _ _; omega
  | succ r ih =>
    intro j
    rw [scanLeaf]
    by_cases h : unpackSpan (leaf.packed j) ≠ 0
    · rw [if_pos h]; exact ⟨by omega, by omega, h, fun y _ _ => by omega⟩
    · rw [if_neg h]
      have := ih (j + 1)
      have h0 : unpackSpan (leaf.packed j) = 0 := by
        by_cases e : unpackSpan (leaf.packed j) = 0
        · exact e
        · exact absurd e h
      cases hs : scanLeaf leaf r (j + 1) with
      | some x =>
        rw [hs] at this
        obtain ⟨a, b, c, d⟩ := this
        refine ⟨by omega, by omega, c, fun y h1 h2 => ?_⟩
        by_cases hy : y = j
        · subst hy; exact h0
        · exact d y (by omega) h2
      | none =>
        rw [hs] at this
        intro y h1 h2
        by_cases hy : y = j
        · subst hy; exact h0
        · exact this y (by omega) (by omega)

/-- The descriptor at position `n` inside a node (`n = i2·2^leafBits + i3`). -/
def nodeAt (c : Cfg) (node : Node) (n : Nat) : Nat :=
  match node (n / 2 ^ c.leafBits) with
  | none => 0
  | some leaf => unpackSpan (leaf.packed (n % 2 ^ c.leafBits))

theorem scanNode_spec (c : Cfg) (node : Node) : ∀ r j2 j3, j3 ≤ 2 ^ c.leafBits →
    match scanNode c node r j2 j3 with
    | some (a, b) => b < 2 ^ c.leafBits ∧ a < j2 + r ∧
        j2 * 2 ^ c.leafBits + j3 ≤ a * 2 ^ c.leafBits + b ∧
        nodeAt c node (a * 2 ^ c.leafBits + b) ≠ 0 ∧
        ∀ y, j2 * 2 ^ c.leafBits + j3 ≤ y → y < a * 2 ^ c.leafBits + b → nodeAt c node y = 0
    | none => ∀ y, j2 * 2 ^ c.leafBits + j3 ≤ y → y < (j2 + r) * 2 ^ c.leafBits →
        nodeAt c node y = 0 := by
  have hA : 0 < 2 ^ c.leafBits := Nat.pow_pos (by omega)
  have hdm : ∀ a b, b < 2 ^ c.leafBits → (a * 2 ^ c.leafBits + b) / 2 ^ c.leafBits = a ∧
      (a * 2 ^ c.leafBits + b) % 2 ^ c.leafBits = b := by
    intro a b hb
    refine ⟨?_, ?_⟩
    · rw [Nat.mul_comm, Nat.mul_add_div hA, Nat.div_eq_of_lt hb]; rfl
    · rw [Nat.mul_comm, Nat.mul_add_mod, Nat.mod_eq_of_lt hb]
  have hin : ∀ y j, j * 2 ^ c.leafBits ≤ y → y < (j + 1) * 2 ^ c.leafBits →
      y = j * 2 ^ c.leafBits + (y - j * 2 ^ c.leafBits) ∧ y - j * 2 ^ c.leafBits < 2 ^ c.leafBits := by
    intro y j h1 h2; rw [Nat.add_mul] at h2; omega
  intro r
  induction r with
  | zero => intro j2 j3 h3; simp only [scanNode]; intro y h1 h2; rw [Nat.add_zero] at h2; omega
  | succ r ih =>
    intro j2 j3 h3
    rw [scanNode]
    have hnext := ih (j2 + 1) 0 (by omega)
    have e1 : (j2 + 1) * 2 ^ c.leafBits = j2 * 2 ^ c.leafBits + 2 ^ c.leafBits := by
      rw [Nat.add_mul, Nat.one_mul]
    -- what is left when this leaf holds nothing at or above `j3`
    have rest : (∀ y, j2 * 2 ^ c.leafBits + j3 ≤ y → y < (j2 + 1) * 2 ^ c.leafBits →
        nodeAt c node y = 0) →
        match scanNode c node r (j2 + 1) 0 with
        | some (a, b) => b < 2 ^ c.leafBits ∧ a < j2 + (r + 1) ∧
            j2 * 2 ^ c.leafBits + j3 ≤ a * 2 ^ c.leafBits + b ∧
            nodeAt c node (a * 2 ^ c.leafBits + b) ≠ 0 ∧
            ∀ y, j2 * 2 ^ c.leafBits + j3 ≤ y → y < a * 2 ^ c.leafBits + b → nodeAt c node y = 0
        | none => ∀ y, j2 * 2 ^ c.leafBits + j3 ≤ y → y < (j2 + (r + 1)) * 2 ^ c.leafBits →
            nodeAt c node y = 0 := by
      intro h0
      cases hs : scanNode c node r (j2 + 1) 0 with
      | some ab =>
        obtain ⟨a, b⟩ := ab
        rw [hs] at hnext
        obtain ⟨h1, h2, h4, h5, h6⟩ := hnext
        refine ⟨h1, by omega, by omega, h5, fun y g1 g2 => ?_⟩
        by_cases hy : y < (j2 + 1) * 2 ^ c.leafBits
        · exact h0 y g1 hy
        · exact h6 y (by omega) g2
      | none =>
        rw [hs] at hnext
        intro y g1 g2
        by_cases hy : y < (j2 + 1) * 2 ^ c.leafBits
        · exact h0 y g1 hy
        · refine hnext y (by omega) ?_
          rw [show j2 + 1 + r = j2 + (r + 1) by omega]; exact g2
    cases hn : node j2 with
    | none =>
      simp only []
      apply rest
      intro y g1 g2
      obtain ⟨q1, q2⟩ := hin y j2 (by omega) g2
      unfold nodeAt
      rw [q1, (hdm j2 _ q2).1, hn]
    | some leaf =>
      simp only []
      have hl := scanLeaf_spec leaf (2 ^ c.leafBits - j3) j3
      cases hs : scanLeaf leaf (2 ^ c.leafBits - j3) j3 with
      | some j =>
        rw [hs] at hl
        obtain ⟨l1, l2, l3, l4⟩ := hl
        have hj : j < 2 ^ c.leafBits := by omega
        refine ⟨hj, by omega, by omega, ?_, fun y g1 g2 => ?_⟩
        · unfold nodeAt
          rw [(hdm j2 j hj).1, (hdm j2 j hj).2, hn]; exact l3
        · obtain ⟨q1, q2⟩ := hin y j2 (by omega) (by omega)
          unfold nodeAt
          rw [q1, (hdm j2 _ q2).1, (hdm j2 _ q2).2, hn]
          exact l4 _ (by omega) (by omega)
      | none =>
        rw [hs] at hl
        simp only []
        apply rest
        intro y g1 g2
        obtain ⟨q1, q2⟩ := hin y j2 (by omega) g2
        unfold nodeAt
        rw [q1, (hdm j2 _ q2).1, (hdm j2 _ q2).2, hn]
        exact hl _ (by omega) (by omega)

theorem get_split {c : Cfg} (hc : c.OK) (m : Map) (a n : Nat) (ha : a < c.rootLength)
    (hn : n < 2 ^ (c.leafBits + c.midBits)) :
    get c m (a * 2 ^ (c.leafBits + c.midBits) + n) =
      match m.root a with
      | none => 0
      | some node => nodeAt c node n := by
  have hA : 0 < 2 ^ c.leafBits := Nat.pow_pos (by omega)
  have hB : 0 < 2 ^ c.midBits := Nat.pow_pos (by omega)
  have hpow : 2 ^ (c.leafBits + c.midBits) = 2 ^ c.leafBits * 2 ^ c.midBits := Nat.pow_add ..
  have h1 : i1 c (a * 2 ^ (c.leafBits + c.midBits) + n) = a := by
    unfold i1
    rw [Nat.shiftRight_eq_div_pow, Nat.mul_comm, Nat.mul_add_div (Nat.pow_pos (by omega)),
      Nat.div_eq_of_lt hn]; rfl
  have h2 : i2 c (a * 2 ^ (c.leafBits + c.midBits) + n) = n / 2 ^ c.leafBits := by
    rw [i2_eq, hpow, show a * (2 ^ c.leafBits * 2 ^ c.midBits) + n =
      2 ^ c.leafBits * (2 ^ c.midBits * a) + n by rw [Nat.mul_comm a, Nat.mul_assoc],
      Nat.mul_add_div hA, Nat.mul_add_mod, Nat.mod_eq_of_lt]
    rw [Nat.div_lt_iff_lt_mul hA, Nat.mul_comm, ← hpow]; exact hn
  have h3 : i3 c (a * 2 ^ (c.leafBits + c.midBits) + n) = n % 2 ^ c.leafBits := by
    rw [i3_eq, hpow, show a * (2 ^ c.leafBits * 2 ^ c.midBits) + n =
      2 ^ c.leafBits * (2 ^ c.midBits * a) + n by rw [Nat.mul_comm a, Nat.mul_assoc],
      Nat.mul_add_mod]
  rw [(lookups_eq hc m _).1]
  unfold leafOf rootAt
  rw [h1, if_pos ha, h2, h3]
  cases m.root a with
  | none => rfl
  | some node => rfl

theorem or_page {c : Cfg} {j a b : Nat} (ha : a < 2 ^ c.midBits) (hb : b < 2 ^ c.leafBits) :
    (j <<< (c.leafBits + c.midBits)) ||| (a <<< c.leafBits) ||| b =
      j * 2 ^ (c.leafBits + c.midBits) + (a * 2 ^ c.leafBits + b) := by
  have hpow : 2 ^ (c.leafBits + c.midBits) = 2 ^ c.leafBits * 2 ^ c.midBits := Nat.pow_add ..
  have e1 : (j <<< (c.leafBits + c.midBits)) ||| (a <<< c.leafBits) =
      (j * 2 ^ c.midBits + a) <<< c.leafBits := by
    rw [Nat.mul_comm j, Nat.two_pow_add_eq_or_of_lt ha, Nat.shiftLeft_or_distrib]
    congr 1
    rw [Nat.shiftLeft_eq, Nat.shiftLeft_eq, hpow, Nat.mul_comm (2 ^ c.midBits) j, Nat.mul_assoc,
      Nat.mul_comm (2 ^ c.midBits)]
  rw [e1, Nat.shiftLeft_eq, Nat.mul_comm, ← Nat.two_pow_add_eq_or_of_lt hb, hpow, Nat.mul_add]
  rw [Nat.mul_comm (2 ^ c.leafBits) (j * 2 ^ c.midBits), Nat.mul_assoc, Nat.mul_comm (2 ^ c.midBits),
    Nat.mul_comm (2 ^ c.leafBits) a]
  omega

theorem scanRoot_spec {c : Cfg} (hc : c.OK) (m : Map) : ∀ r j1 j2 j3, j3 ≤ 2 ^ c.leafBits →
    j2 < 2 ^ c.midBits → j1 + r ≤ c.rootLength →
    match scanRoot c m r j1 j2 j3 with
    | some x => j1 * 2 ^ (c.leafBits + c.midBits) + (j2 * 2 ^ c.leafBits + j3) ≤ x ∧
        x < (j1 + r) * 2 ^ (c.leafBits + c.midBits) ∧ get c m x ≠ 0 ∧
        ∀ y, j1 * 2 ^ (c.leafBits + c.midBits) + (j2 * 2 ^ c.leafBits + j3) ≤ y → y < x →
          get c m y = 0
    | none => ∀ y, j1 * 2 ^ (c.leafBits + c.midBits) + (j2 * 2 ^ c.leafBits + j3) ≤ y →
        y < (j1 + r) * 2 ^ (c.leafBits + c.midBits) → get c m y = 0 := by
  have hA : 0 < 2 ^ c.leafBits := Nat.pow_pos (by omega)
  have hB : 0 < 2 ^ c.midBits := Nat.pow_pos (by omega)
  have hpow : 2 ^ (c.leafBits + c.midBits) = 2 ^ c.midBits * 2 ^ c.leafBits := by
    rw [Nat.pow_add, Nat.mul_comm]
  have hw : ∀ a b, b < 2 ^ c.leafBits → a < 2 ^ c.midBits →
      a * 2 ^ c.leafBits + b < 2 ^ (c.leafBits + c.midBits) := by
    intro a b hb ha
    have h1 : (a + 1) * 2 ^ c.leafBits ≤ 2 ^ c.midBits * 2 ^ c.leafBits :=
      Nat.mul_le_mul_right _ (by omega)
    rw [Nat.add_mul, Nat.one_mul] at h1
    rw [hpow]; omega
  have hgs := get_split hc m
  generalize hW : 2 ^ (c.leafBits + c.midBits) = W at *
  have hin : ∀ y j, j * W ≤ y → y < (j + 1) * W → y = j * W + (y - j * W) ∧ y - j * W < W := by
    intro y j h1 h2; rw [Nat.add_mul] at h2; omega
  intro r
  induction r with
  | zero =>
    intro j1 j2 j3 h3 h2 h1; simp only [scanRoot]; intro y g1 g2; rw [Nat.add_zero] at g2; omega
  | succ r ih =>
    intro j1 j2 j3 h3 h2 h1
    rw [scanRoot]
    have hnext := ih (j1 + 1) 0 0 (by omega) hB (by omega)
    have e1 : (j1 + 1) * W = j1 * W + W := by rw [Nat.add_mul, Nat.one_mul]
    have hstart : j2 * 2 ^ c.leafBits + j3 ≤ W := by
      have h1 : (j2 + 1) * 2 ^ c.leafBits ≤ 2 ^ c.midBits * 2 ^ c.leafBits :=
        Nat.mul_le_mul_right _ (by omega)
      rw [Nat.add_mul, Nat.one_mul, ← hpow] at h1
      omega
    generalize hS : j2 * 2 ^ c.leafBits + j3 = S at *
    have rest : (∀ y, j1 * W + S ≤ y → y < (j1 + 1) * W → get c m y = 0) →
        match scanRoot c m r (j1 + 1) 0 0 with
        | some x => j1 * W + S ≤ x ∧ x < (j1 + (r + 1)) * W ∧ get c m x ≠ 0 ∧
            ∀ y, j1 * W + S ≤ y → y < x → get c m y = 0
        | none => ∀ y, j1 * W + S ≤ y → y < (j1 + (r + 1)) * W → get c m y = 0 := by
      intro h0
      have er : j1 + 1 + r = j1 + (r + 1) := by omega
      simp only [er, Nat.zero_mul, Nat.add_zero] at hnext
      cases hs : scanRoot c m r (j1 + 1) 0 0 with
      | some x =>
        rw [hs] at hnext
        obtain ⟨g1, g2, g3, g4⟩ := hnext
        refine ⟨by omega, g2, g3, fun y q1 q2 => ?_⟩
        by_cases hy : y < (j1 + 1) * W
        · exact h0 y q1 hy
        · exact g4 y (by omega) q2
      | none =>
        rw [hs] at hnext
        intro y q1 q2
        by_cases hy : y < (j1 + 1) * W
        · exact h0 y q1 hy
        · exact hnext y (by omega) q2
    cases hm : m.root j1 with
    | none =>
      simp only []
      apply rest
      intro y g1 g2
      obtain ⟨q1, q2⟩ := hin y j1 (by omega) g2
      rw [q1, hgs j1 _ (by omega) q2, hm]
    | some node =>
      simp only []
      have hn := scanNode_spec c node (2 ^ c.midBits - j2) j2 j3 h3
      cases hs : scanNode c node (2 ^ c.midBits - j2) j2 j3 with
      | some ab =>
        obtain ⟨a, b⟩ := ab
        rw [hs] at hn
        obtain ⟨n1, n2, n3, n4, n5⟩ := hn
        have ha : a < 2 ^ c.midBits := by omega
        have hab := hw a b n1 ha
        simp only []
        rw [or_page ha n1, hW]
        have hup : (j1 + 1) * W ≤ (j1 + (r + 1)) * W := Nat.mul_le_mul_right _ (by omega)
        refine ⟨by omega, by omega, ?_, fun y g1 g2 => ?_⟩
        · rw [hgs j1 _ (by omega) hab, hm]; exact n4
        · obtain ⟨q1, q2⟩ := hin y j1 (by omega) (by omega)
          rw [q1, hgs j1 _ (by omega) q2, hm]
          exact n5 _ (by omega) (by omega)
      | none =>
        rw [hs] at hn
        simp only []
        apply rest
        intro y g1 g2
        obtain ⟨q1, q2⟩ := hin y j1 (by omega) g2
        rw [q1, hgs j1 _ (by omega) q2, hm]
        refine hn _ (by omega) ?_
        rw [show j2 + (2 ^ c.midBits - j2) = 2 ^ c.midBits by omega, ← hpow]
        exact q2

/-- `get_next_set_page` finds the first later page holding a descriptor. -/
theorem nextSet_spec {c : Cfg} (hc : c.OK) (m : Map) (k : Nat) :
    match nextSet c m k with
    | some x => k < x ∧ x < 2 ^ c.bits ∧ get c m x ≠ 0 ∧ ∀ y, k < y → y < x → get c m y = 0
    | none => ∀ y, k < y → get c m y = 0 := by
  have hbig : ∀ y, ¬ y < 2 ^ c.bits → get c m y = 0 := by
    intro y hy; rw [(lookups_eq hc m y).1, leafOf_out hc hy]
  have hA : 0 < 2 ^ c.leafBits := Nat.pow_pos (by omega)
  have hB : 0 < 2 ^ c.midBits := Nat.pow_pos (by omega)
  have hbits : c.rootLength * 2 ^ (c.leafBits + c.midBits) = 2 ^ c.bits := by
    have hr := hc.root
    unfold Cfg.rootLength
    rw [Nat.shiftLeft_eq, Nat.one_mul, ← Nat.pow_add]
    congr 1; unfold Cfg.rootBits at *; omega
  have hk1 : i1 c (k + 1) * 2 ^ (c.leafBits + c.midBits) +
      (i2 c (k + 1) * 2 ^ c.leafBits + i3 c (k + 1)) = k + 1 := by
    rw [i1_eq, i2_eq, i3_eq, Nat.pow_add, Nat.mul_comm (2 ^ c.leafBits), ← Nat.mul_assoc,
      ← Nat.add_assoc, ← Nat.add_mul]
    rw [Nat.mul_comm ((k + 1) / 2 ^ c.leafBits / 2 ^ c.midBits), Nat.div_add_mod, Nat.mul_comm,
      Nat.div_add_mod]
  unfold nextSet
  by_cases hin : i1 c (k + 1) < c.rootLength
  · have hs := scanRoot_spec hc m (c.rootLength - i1 c (k + 1)) (i1 c (k + 1)) (i2 c (k + 1)) (i3 c (k + 1))
      (by rw [i3_eq]; exact Nat.le_of_lt (Nat.mod_lt _ hA)) (by rw [i2_eq]; exact Nat.mod_lt _ hB)
      (by omega)
    rw [hk1, show i1 c (k + 1) + (c.rootLength - i1 c (k + 1)) = c.rootLength by omega, hbits] at hs
    cases h : scanRoot c m (c.rootLength - i1 c (k + 1)) (i1 c (k + 1)) (i2 c (k + 1)) (i3 c (k + 1)) with
    | some x =>
      rw [h] at hs
      obtain ⟨a, b, d, e⟩ := hs
      exact ⟨by omega, b, d, fun y h1 h2 => e y (by omega) h2⟩
    | none =>
      rw [h] at hs
      intro y hy
      by_cases hb : y < 2 ^ c.bits
      · exact hs y (by omega) hb
      · exact hbig y hb
  · rw [show c.rootLength - i1 c (k + 1) = 0 by omega]
    simp only [scanRoot]
    intro y hy
    apply hbig
    have : ¬ k + 1 < 2 ^ c.bits := fun hlt => hin ((in_root hc (k + 1)).2 hlt)
    omega

/-! ### Enumerating spans -/

/-- What the enumeration needs to know about the live descriptors. -/
structure LiveOK (c : Cfg) (m : Map) (first last : Nat → Nat) (inv : Nat) (live : Nat → Prop) : Prop where
  real : ∀ s, live s → s ≠ 0 ∧ s ≠ inv ∧ first s ≤ last s ∧ last s < 2 ^ c.bits
  mapped : ∀ s, live s → get c m (first s) = s
  disjoint : ∀ s t, live s → live t → s ≠ t → last s < first t ∨ last t < first s
  noStale : ∀ p, (∀ s, live s → ¬ (first s ≤ p ∧ p ≤ last s)) →
    get c m p = 0 ∨ get c m p = inv ∨ p < first (get c m p) ∨ last (get c m p) < p

theorem allocatedLoop_spec {c : Cfg} (hc : c.OK) {m : Map} {first last : Nat → Nat} {inv : Nat}
    {live : Nat → Prop} (h : LiveOK c m first last inv live) : ∀ fuel i,
    2 ^ c.bits < fuel + i → i < 2 ^ c.bits → (∀ s, live s → i ≤ first s ∨ last s < i) →
    (∀ e ∈ allocatedLoop c m first last inv fuel i, live e.1 ∧ e.2 = first e.1 ∧ i ≤ e.2) ∧
    (∀ s, live s → i ≤ first s → (s, first s) ∈ allocatedLoop c m first last inv fuel i) ∧
    (allocatedLoop c m first last inv fuel i).Pairwise (fun a b => last a.1 < b.2) := by
  intro fuel
  induction fuel with
  | zero => intro i h1 h2; omega
  | succ fuel ih =>
    intro i h1 h2 hi
    rw [allocatedLoop]
    by_cases hcond : get c m i = 0 ∨ get c m i = inv ∨ i < first (get c m i) ∨ last (get c m i) < i
    · rw [if_pos hcond]
      -- no live span starts here
      have hns : ∀ s, live s → first s ≠ i := by
        intro s hs e
        obtain ⟨r1, r2, r3, r4⟩ := h.real s hs
        have hm := h.mapped s hs
        rw [e] at hm
        rw [hm] at hcond
        omega
      have hn := nextSet_spec hc m i
      cases hx : nextSet c m i with
      | none =>
        rw [hx] at hn
        refine ⟨by simp, fun s hs hle => ?_, List.Pairwise.nil⟩
        have := hn (first s) (by have := hns s hs; omega)
        rw [h.mapped s hs] at this
        exact absurd this (h.real s hs).1
      | some x =>
        rw [hx] at hn
        simp only []
        obtain ⟨n1, n2, n3, n4⟩ := hn
        have hfirst : ∀ s, live s → i ≤ first s → x ≤ first s := by
          intro s hs hle
          have hne := hns s hs
          by_cases hlt : first s < x
          · have := n4 (first s) (by omega) hlt
            rw [h.mapped s hs] at this
            exact absurd this (h.real s hs).1
          · omega
        obtain ⟨a, b, d⟩ := ih x (by omega) n2 (fun s hs => by
          rcases hi s hs with g | g
          · left; exact hfirst s hs g
          · right; omega)
        refine ⟨fun e he => ?_, fun s hs hle => b s hs (hfirst s hs hle), d⟩
        obtain ⟨q1, q2, q3⟩ := a e he
        exact ⟨q1, q2, by omega⟩
    · rw [if_neg hcond]
      -- this page must belong to a live span, hence start it
      have hex : ∃ s, live s ∧ first s ≤ i ∧ i ≤ last s := by
        apply Classical.byContradiction
        intro hno
        exact hcond (h.noStale i (fun s hs hc' => hno ⟨s, hs, hc'.1, hc'.2⟩))
      obtain ⟨s, hs, hs1, hs2⟩ := hex
      have hfi : first s = i := by have := hi s hs; omega
      have hget : get c m i = s := by rw [← hfi]; exact h.mapped s hs
      rw [hget]
      obtain ⟨r1, r2, r3, r4⟩ := h.real s hs
      have hn := nextSet_spec hc m (last s)
      have hafter : ∀ t, live t → t ≠ s → i ≤ first t → last s < first t := by
        intro t ht hne hle
        rcases h.disjoint t s ht hs hne with g | g
        · have := (h.real t ht).2.2.1; omega
        · exact g
      cases hx : nextSet c m (last s) with
      | none =>
        rw [hx] at hn
        simp only []
        refine ⟨?_, ?_, by simp⟩
        · intro e he
          simp only [List.mem_singleton] at he
          subst he
          exact ⟨hs, hfi.symm, Nat.le_refl _⟩
        · intro t ht hle
          by_cases hts : t = s
          · subst hts; rw [hfi]; simp
          · have := hn (first t) (hafter t ht hts hle)
            rw [h.mapped t ht] at this
            exact absurd this (h.real t ht).1
      | some x =>
        rw [hx] at hn
        simp only []
        obtain ⟨n1, n2, n3, n4⟩ := hn
        have hfirst : ∀ t, live t → t ≠ s → i ≤ first t → x ≤ first t := by
          intro t ht hne hle
          have hgt := hafter t ht hne hle
          by_cases hlt : first t < x
          · have := n4 (first t) hgt hlt
            rw [h.mapped t ht] at this
            exact absurd this (h.real t ht).1
          · omega
        obtain ⟨a, b, d⟩ := ih x (by omega) n2 (fun t ht => by
          by_cases hts : t = s
          · subst hts; right; omega
          · rcases hi t ht with g | g
            · left; exact hfirst t ht hts g
            · right; omega)
        refine ⟨?_, ?_, ?_⟩
        · intro e he
          rcases List.mem_cons.1 he with he | he
          · subst he; exact ⟨hs, hfi.symm, Nat.le_refl _⟩
          · obtain ⟨q1, q2, q3⟩ := a e he
            exact ⟨q1, q2, by omega⟩
        · intro t ht hle
          by_cases hts : t = s
          · subst hts; rw [hfi]; exact List.mem_cons_self
          · exact List.mem_cons_of_mem _ (b t ht (hfirst t ht hts hle))
        · refine List.pairwise_cons.2 ⟨fun e he => ?_, d⟩
          obtain ⟨q1, q2, q3⟩ := a e he
          simp only []; omega

/-! ### Leaves stay -/

theorem modLeaf_keeps {c : Cfg} {m m' : Map} {k : Nat} {f : Leaf → Leaf} (e : modLeaf c m k f = some m')
    {p : Nat} (h : leafOf c m p ≠ none) : leafOf c m' p ≠ none := by
  rcases modLeaf_spec (c := c) (m := m) (k := k) (f := f) with ⟨_, e'⟩ | ⟨leaf, m'', _, e', hall⟩
  · rw [e'] at e; simp at e
  · rw [e'] at e
    simp only [Option.some.injEq] at e
    subst e
    rw [hall p]
    split
    · simp
    · exact h

theorem step_keeps {c : Cfg} (al : Nat → Bool) {m m' : Map} {o : Op} (e : step c al m o = some m')
    {p : Nat} (h : leafOf c m p ≠ none) : leafOf c m' p ≠ none := by
  have hreg : ∀ s sc n q (m m' : Map), registerLoop c m s sc n q = some m' → leafOf c m p ≠ none →
      leafOf c m' p ≠ none := by
    intro s sc n
    induction n with
    | zero => intro q m m' e h; simp only [registerLoop, Option.some.injEq] at e; subst e; exact h
    | succ n ih =>
      intro q m m' e h
      rw [registerLoop] at e
      cases h1 : setWithClass c m q s sc with
      | none => rw [h1] at e; simp at e
      | some m1 => rw [h1] at e; exact ih _ m1 m' e (modLeaf_keeps h1 h)
  have hun : ∀ n q (m m' : Map), unregisterLoop c m n q = some m' → leafOf c m p ≠ none →
      leafOf c m' p ≠ none := by
    intro n
    induction n with
    | zero => intro q m m' e h; simp only [unregisterLoop, Option.some.injEq] at e; subst e; exact h
    | succ n ih =>
      intro q m m' e h
      rw [unregisterLoop] at e
      cases h1 : clearClass c m q with
      | none => rw [h1] at e; simp at e
      | some m1 => rw [h1] at e; exact ih _ m1 m' e (modLeaf_keeps h1 h)
  cases o with
  | ensure start n =>
    simp only [step, Option.some.injEq] at e
    subst e
    rcases (ensureLoop_spec (c := c) al _ _ start m (Nat.le_refl _)).1 p with e | ⟨e, _⟩
    · unfold ensure; rw [e]; exact h
    · exact absurd e h
  | set k s => exact modLeaf_keeps e h
  | register s sc first n => exact hreg s sc n first m m' e h
  | unregister first n => exact hun n first m m' e h
  | setHuge k x => exact modLeaf_keeps e h

theorem run_keeps {c : Cfg} (al : Nat → Bool) {p : Nat} : ∀ (os : List Op) (m m' : Map),
    run c al m os = some m' → leafOf c m p ≠ none → leafOf c m' p ≠ none := by
  intro os
  induction os with
  | nil => intro m m' e h; simp only [run, Option.some.injEq] at e; subst e; exact h
  | cons o os ih =>
    intro m m' e h
    rw [run] at e
    cases h1 : step c al m o with
    | none => rw [h1] at e; simp at e
    | some m1 => rw [h1] at e; exact ih m1 m' e (step_keeps al h1 h)

/-- With memory available, `Ensure` succeeds on pages in range. -/
theorem ensureLoop_total {c : Cfg} (hc : c.OK) (al : Nat → Bool) (hal : ∀ n, al n = true) (last : Nat)
    (hl : last < 2 ^ c.bits) : ∀ (d key : Nat) (m : Map), last + 1 - key ≤ d →
    (ensureLoop c al m key last).2 = true := by
  intro d
  induction d with
  | zero => intro key m hd; rw [ensureLoop, if_neg (by omega)]
  | succ d ih =>
    intro key m hd
    rw [ensureLoop]
    by_cases hle : key ≤ last
    · rw [if_pos hle]
      have hk : (ensureKey c al m key).2 = true := by
        have hin := (in_root hc key).2 (by omega)
        unfold ensureKey
        rw [if_neg (by omega)]
        simp only [hal]
        cases m.root (i1 c key) with
        | none => simp
        | some node => simp only []; cases node (i2 c key) <;> simp
      generalize ensureKey c al m key = r at hk
      obtain ⟨m1, b⟩ := r
      simp only [] at hk
      subst hk
      simp only []
      apply ih
      rw [Nat.shiftLeft_eq, Nat.shiftRight_eq_div_pow]
      have hA : 0 < 2 ^ c.leafBits := Nat.pow_pos (by omega)
      have := Nat.lt_div_mul_add hA (a := key)
      rw [Nat.add_mul]; omega
    · rw [if_neg hle]

end Verif.PageMap
