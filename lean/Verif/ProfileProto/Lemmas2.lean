import Verif.ProfileProto.Lemmas
/- Labels, mappings, merging. -/
namespace Verif.ProfileProto

/-! ### Labels -/

theorem toI64_eq (v : Nat) : toI64 v = signed (v : Int) := by
  unfold toI64 signed
  split <;> split <;> omega

theorem toSize_cast (v : Int) : ((toSize v : Nat) : Int) = v % 2 ^ 64 := by
  unfold toSize
  omega

theorem signed_mod (v : Int) : signed (v % 2 ^ 64) = signed v := by
  unfold signed
  rw [Int.emod_emod_of_dvd v (Int.dvd_refl _)]

theorem toI64_toSize (v : Int) : toI64 (toSize v) = signed v := by
  rw [toI64_eq, toSize_cast, signed_mod]

theorem read_num {p : Proto} {k u : Nat} {ks us : String} (h0 : p.strings[0]? = some "")
    (hk : p.strings[k]? = some ks) (hu : p.strings[u]? = some us) (v : Nat) :
    readLabel p (numLabel k u v) = some (num ks us v) := by
  simp only [readLabel, numLabel, h0, hk, hu, num, toI64_eq]

theorem read_numZ {p : Proto} {k u : Nat} {ks us : String} (h0 : p.strings[0]? = some "")
    (hk : p.strings[k]? = some ks) (hu : p.strings[u]? = some us) (v : Int) :
    readLabel p (numLabel k u (toSize v)) = some (num ks us v) := by
  simp only [readLabel, numLabel, h0, hk, hu, num, toI64_toSize]

theorem read_text {p : Proto} {k u : Nat} {ks us : String} (h0 : p.strings[0]? = some "")
    (hk : p.strings[k]? = some ks) (hu : p.strings[u]? = some us) :
    readLabel p (strLabel k u) = some (text ks us) := by
  simp only [readLabel, strLabel, h0, hk, hu, text]

theorem read_pos {p : Proto} {k u : Nat} {ks us : String} (h0 : p.strings[0]? = some "")
    (hk : p.strings[k]? = some ks) (hu : p.strings[u]? = some us) {v : Nat} (hv : v < 2 ^ 64) :
    readAll (readLabel p) (posLabel k u v) = some (opt ks us v) := by
  unfold posLabel opt
  by_cases h : v = 0
  · rw [if_pos h, if_pos (by omega)]; rfl
  · rw [if_neg h, if_neg (by omega)]
    exact readAll_one (read_num h0 hk hu v)

theorem read_posZ {p : Proto} {k u : Nat} {ks us : String} (h0 : p.strings[0]? = some "")
    (hk : p.strings[k]? = some ks) (hu : p.strings[u]? = some us) (v : Int) :
    readAll (readLabel p) (posLabel k u (toSize v)) = some (opt ks us v) := by
  unfold posLabel opt
  have := toSize_cast v
  by_cases h : toSize v = 0
  · rw [if_pos h, if_pos (by omega)]; rfl
  · rw [if_neg h, if_neg (by omega)]
    exact readAll_one (read_numZ h0 hk hu v)

theorem tags_ok {b : Builder} (inv : Inv b) {e : Entry} (hv : Valid e) :
    ∃ c l, commonTags b e = some (c, l) ∧ Inv c ∧ Ext b c ∧
      readAll (readLabel c.p) l = some (plainTags (keyOf e)) := by
  unfold commonTags
  obtain ⟨i1, e1, n1⟩ := names_ok (names := tagNames) inv
  generalize b.internList tagNames = x at *
  obtain ⟨b1, ids1⟩ := x
  dsimp only at *
  obtain ⟨i2, e2, n2⟩ := names_ok (names := guardNames) i1
  generalize b1.internList guardNames = x at *
  obtain ⟨b2, ids2⟩ := x
  dsimp only at *
  have n1' := n1.mono e2.grows
  have z := i2.s0
  have N : ∀ {s}, s ∈ tagNames → b2.p.strings[idOf ids1 s]? = some s := fun hs => n1' _ hs
  have G : ∀ {s}, s ∈ guardNames → b2.p.strings[idOf ids2 s]? = some s := fun hs => n2 _ hs
  have hg : ∃ g, guardLabel (idOf ids2) e.guarded = some g ∧
      readLabel b2.p g = some (text "guarded_status" ((guardName e.guarded).getD "")) := by
    have hs := hv.status
    cases he : e.guarded <;> rw [he] at hs <;> simp only [guardName, Option.isSome] at hs <;>
      first
      | exact ⟨_, rfl, read_text z (G (by decide)) (G (by decide))⟩
      | cases hs
  obtain ⟨g, hg1, hg2⟩ := hg
  rw [hg1]
  refine ⟨b2, _, rfl, i2, e1.trans e2, ?_⟩
  have hal : readAll (readLabel b2.p) (match e.alignment with
      | some a => posLabel (idOf ids1 "alignment") (idOf ids1 "bytes") a
      | none => []) = some (match (keyOf e).alignment with
      | some a => opt "alignment" "bytes" a
      | none => []) := by
    show _ = some (match e.alignment with
      | some a => opt "alignment" "bytes" a
      | none => [])
    cases ha : e.alignment with
    | none => rfl
    | some a => exact read_pos z (N (by decide)) (N (by decide)) (hv.alignment a ha)
  have hsr : readAll (readLabel b2.p) (posLabel (idOf ids1 "size_returning") 0
      (if e.sizeReturning then 1 else 0)) =
      some (if (keyOf e).sizeReturning then [num "size_returning" "" 1] else []) := by
    show _ = some (if e.sizeReturning then [num "size_returning" "" 1] else [])
    cases e.sizeReturning with
    | false => rfl
    | true => exact read_pos z (N (by decide)) z (by decide)
  have hac : readAll (readLabel b2.p) (accessLabel (idOf ids1) e.access) =
      some (accessName (keyOf e).access) := by
    show _ = some (accessName e.access)
    cases e.access with
    | hot => exact readAll_one (read_text z (N (by decide)) (N (by decide)))
    | cold => exact readAll_one (read_text z (N (by decide)) (N (by decide)))
    | doNotUse => rfl
  have hty : readLabel b2.p (typeLabel (idOf ids1) e.type) =
      some (text "allocation type" (typeName (keyOf e).type)) := by
    show _ = some (text "allocation type" (typeName e.type))
    cases e.type <;> exact read_text z (N (by decide)) (N (by decide))
  have h1 := read_pos z (N (s := "bytes") (by decide)) (N (s := "bytes") (by decide)) hv.allocated
  have h2 := read_pos z (N (s := "request") (by decide)) (N (s := "bytes") (by decide)) hv.requested
  have h5 := readAll_one (read_num z (N (s := "access_hint") (by decide))
    (N (s := "access_hint") (by decide)) e.hint)
  have h7 := readAll_one (read_num z (N (s := "token_id") (by decide))
    (N (s := "token_id") (by decide)) e.token)
  have hall := readAll_append (readAll_append (readAll_append (readAll_append (readAll_append
    (readAll_append (readAll_append (readAll_append h1 h2) hal) hsr) h5) hac) h7)
    (readAll_one hty)) (readAll_one hg2)
  refine hall.trans ?_
  unfold plainTags
  simp only [keyOf, List.append_assoc, List.cons_append, List.nil_append]
  rfl

/-! ### Mappings -/

theorem emplace_mem {key i : Nat} : ∀ {l : List (Nat × Nat)} {e : Nat × Nat},
    e ∈ emplace key i l → e ∈ l ∨ e = (key, i)
  | [], e, h => by simp only [emplace, List.mem_singleton] at h; exact .inr h
  | a :: l, e, h => by
    simp only [emplace] at h
    split at h
    · rcases List.mem_cons.1 h with h | h
      · exact .inr h
      · exact .inl h
    · split at h
      · exact .inl h
      · rcases List.mem_cons.1 h with h | h
        · exact .inl (h ▸ List.mem_cons_self)
        · rcases emplace_mem h with h | h
          · exact .inl (List.mem_cons_of_mem _ h)
          · exact .inr h

theorem mem_emplace {key i : Nat} : ∀ {l : List (Nat × Nat)} {e : Nat × Nat},
    e ∈ l → e ∈ emplace key i l
  | a :: l, e, h => by
    simp only [emplace]
    split
    · exact List.mem_cons_of_mem _ h
    · split
      · exact h
      · rcases List.mem_cons.1 h with h | h
        · exact h ▸ List.mem_cons_self
        · exact List.mem_cons_of_mem _ (mem_emplace h)

theorem emplace_key {key i : Nat} : ∀ {l : List (Nat × Nat)}, ∃ e ∈ emplace key i l, e.1 = key
  | [] => ⟨(key, i), by simp [emplace], rfl⟩
  | a :: l => by
    simp only [emplace]
    split
    · exact ⟨_, List.mem_cons_self, rfl⟩
    · split
      · rename_i h
        exact ⟨a, List.mem_cons_self, h.symm⟩
      · obtain ⟨e, h1, h2⟩ := emplace_key (key := key) (i := i) (l := l)
        exact ⟨e, List.mem_cons_of_mem _ h1, h2⟩

theorem emplace_sorted {key i : Nat} : ∀ {l : List (Nat × Nat)}, l.Pairwise (·.1 < ·.1) →
    (emplace key i l).Pairwise (·.1 < ·.1)
  | [], _ => by simp [emplace]
  | a :: l, h => by
    obtain ⟨h1, h2⟩ := List.pairwise_cons.1 h
    simp only [emplace]
    split
    · rename_i hlt
      refine List.pairwise_cons.2 ⟨?_, h⟩
      intro x hx
      rcases List.mem_cons.1 hx with hx | hx
      · subst hx; exact hlt
      · have := h1 x hx
        dsimp only
        omega
    · split
      · exact h
      · rename_i h3 h4
        refine List.pairwise_cons.2 ⟨?_, emplace_sorted h2⟩
        intro x hx
        rcases emplace_mem hx with hx | hx
        · exact h1 x hx
        · subst hx
          dsimp only
          omega

/-- After the mappings are added: nothing else is there, and they are the segments. -/
structure Mapped (b : Builder) (l : List Segment) : Prop where
  inv : Inv b
  locs : b.p.locations = []
  samples : b.p.samples = []
  types : b.p.sampleTypes = []
  segs : readAll (readMapping b.p) b.p.mappings = some l

theorem addMapping_ok {b : Builder} {l : List Segment} (h : Mapped b l) (g : Segment) :
    Mapped (b.addMapping g) (l ++ [g]) := by
  obtain ⟨inv, hl, hs, ht, hg⟩ := h
  unfold Builder.addMapping
  dsimp only
  obtain ⟨i1, e1, r1, q1⟩ := intern_ok inv g.filename
  generalize b.internString g.filename = x at *
  obtain ⟨b1, f⟩ := x
  dsimp only at *
  obtain ⟨i2, e2, r2, q2⟩ := intern_ok i1 g.buildId
  generalize b1.internString g.buildId = x at *
  obtain ⟨b2, bi⟩ := x
  dsimp only at *
  have hloc : b2.p.locations = [] := by rw [q2, q1, hl]
  have hmaps : b2.p.mappings = b.p.mappings := e2.maps.trans e1.maps
  refine ⟨?_, hloc, ?_, ?_, ?_⟩
  · constructor
    · exact i2.s0
    · exact i2.sfwd
    · exact i2.sbwd
    · exact fun a i h => i2.lfwd a i h
    · exact i2.lids
    · exact i2.lbwd
    · intro x hx
      dsimp only at hx
      rw [hloc] at hx
      cases hx
    · intro k m hk
      dsimp only at hk
      rw [List.getElem?_append] at hk
      split at hk
      · exact i2.mids k m hk
      · have : k - b2.p.mappings.length = 0 := by
          apply Classical.byContradiction
          intro hne
          rw [List.getElem?_eq_none (by simp; omega)] at hk
          cases hk
        rw [this] at hk
        simp only [List.getElem?_cons_zero, Option.some.injEq] at hk
        subst hk
        dsimp only
        rw [hmaps] at *
        omega
    · exact emplace_sorted i2.msort
    · intro e he
      dsimp only at he ⊢
      rcases emplace_mem he with h | h
      · obtain ⟨m, h1, h2⟩ := i2.mfwd e h
        exact ⟨m, by rw [List.getElem?_append_left (List.getElem?_eq_some_iff.1 h1).1, h1], h2⟩
      · subst h
        refine ⟨⟨b.p.mappings.length + 1, g.start, g.limit, g.offset, f, bi⟩, ?_, rfl⟩
        rw [hmaps, List.getElem?_append_right (by simp)]
        simp
    · intro m hm
      dsimp only at hm ⊢
      rcases List.mem_append.1 hm with h | h
      · obtain ⟨e, h1, h2⟩ := i2.mall m h
        exact ⟨e, mem_emplace h1, h2⟩
      · simp only [List.mem_singleton] at h
        subst h
        exact emplace_key
  · rw [e2.samples, e1.samples, hs]
  · rw [e2.types, e1.types, ht]
  · dsimp only
    have hmono := readAll_mono (fun _ _ => (e1.grows.trans e2.grows).mapping) hg
    rw [hmaps]
    refine readAll_append (f := readMapping _) hmono (readAll_one ?_)
    simp only [readMapping, e2.grows.str r1, r2]

theorem addMappings_ok : ∀ {l : List Segment} {b : Builder} {d : List Segment}, Mapped b d →
    Mapped (b.addMappings l) (d ++ l)
  | [], b, d, h => by simpa [Builder.addMappings] using h
  | g :: l, b, d, h => by
    have := addMappings_ok (l := l) (addMapping_ok h g)
    simpa [Builder.addMappings] using this

theorem mapped_empty : Mapped Builder.empty [] := ⟨inv_empty, rfl, rfl, rfl, rfl⟩

/-- The iterator is at the last key not above the address, if there is one. -/
theorem iterator_spec {l : List (Nat × Nat)} (hs : l.Pairwise (·.1 < ·.1)) {a k : Nat}
    {e : Nat × Nat} (hk : k = l.findIdx fun e => decide (a < e.1))
    (he : l[if k ≠ 0 then k - 1 else k]? = some e) :
    e ∈ l ∧ ((e.1 ≤ a ∧ ∀ x ∈ l, x.1 ≤ a → x.1 ≤ e.1) ∨ (a < e.1 ∧ ∀ x ∈ l, a < x.1)) := by
  refine ⟨List.mem_of_getElem? he, ?_⟩
  have hlt : ∀ i (h : i < l.length), i < k → ¬ a < l[i].1 := by
    intro i h hik
    have := List.not_of_lt_findIdx (p := fun e : Nat × Nat => decide (a < e.1)) (xs := l)
      (i := i) (by omega)
    simpa using this
  have hge : ∀ i (h : i < l.length), k ≤ i → a < l[i].1 := by
    intro i h hik
    have hkl : k < l.length := by omega
    have h1 : a < l[k].1 := by
      have := List.findIdx_getElem (p := fun e : Nat × Nat => decide (a < e.1)) (xs := l)
        (w := by omega)
      simp only [decide_eq_true_eq] at this
      subst hk
      exact this
    by_cases hki : k = i
    · subst hki; exact h1
    · have := List.pairwise_iff_getElem.1 hs k i hkl h (by omega)
      omega
  obtain ⟨hi, rfl⟩ := List.getElem?_eq_some_iff.1 he
  by_cases hk0 : k = 0
  · simp only [hk0, ne_eq, not_true, if_false] at hi ⊢
    right
    refine ⟨hge 0 hi (by omega), ?_⟩
    intro x hx
    obtain ⟨i, h, rfl⟩ := List.getElem_of_mem hx
    exact hge i h (by omega)
  · simp only [hk0, ne_eq, not_false_eq_true, if_true] at hi ⊢
    left
    refine ⟨by have := hlt (k - 1) hi (by omega); omega, ?_⟩
    intro x hx hxa
    obtain ⟨i, h, rfl⟩ := List.getElem_of_mem hx
    have hik : i < k := by
      apply Classical.byContradiction
      intro hn
      have := hge i h (by omega)
      omega
    by_cases hi' : i = k - 1
    · subst hi'; omega
    · have := List.pairwise_iff_getElem.1 hs i (k - 1) h hi (by omega)
      omega

/-- Two ranges of addresses have nothing in common. -/
def apart (a b : Mapping) : Prop := a.limit ≤ b.start ∨ b.limit ≤ a.start

theorem mappingOf_spec {b : Builder} (inv : Inv b) (hd : b.p.mappings.Pairwise apart)
    (hne : ∀ m ∈ b.p.mappings, m.start < m.limit) {a i : Nat} (h : b.mappingOf a = some i) :
    (∃ m ∈ b.p.mappings, m.start ≤ a ∧ a < m.limit ∧ i = m.id) ∨
    (i = 0 ∧ ∀ m ∈ b.p.mappings, ¬ (m.start ≤ a ∧ a < m.limit)) := by
  unfold Builder.mappingOf at h
  by_cases hm : b.mapIdx.isEmpty
  · rw [if_pos hm] at h
    cases h
    right
    refine ⟨rfl, ?_⟩
    intro m hmem
    obtain ⟨e, he, _⟩ := inv.mall m hmem
    rw [List.isEmpty_iff.1 hm] at he
    cases he
  · rw [if_neg hm] at h
    cases hit : b.iterator a with
    | none => rw [hit] at h; cases h
    | some e =>
      obtain ⟨first, idx⟩ := e
      rw [hit] at h
      dsimp only at h
      obtain ⟨hmem, hspec⟩ := iterator_spec inv.msort rfl hit
      obtain ⟨m, hm1, hm2⟩ := inv.mfwd _ hmem
      rw [hm1] at h
      dsimp only at h
      dsimp only at hm2 hspec
      rw [if_neg (by simp [hm2])] at h
      have hmm : m ∈ b.p.mappings := List.mem_of_getElem? hm1
      split at h
      · rename_i hc
        cases h
        exact .inl ⟨m, hmm, by omega, hc.2, rfl⟩
      · rename_i hc
        cases h
        right
        refine ⟨rfl, ?_⟩
        intro m' hmem' ⟨h1, h2⟩
        obtain ⟨e', he', hk'⟩ := inv.mall m' hmem'
        rcases hspec with ⟨g1, g2⟩ | ⟨g1, g2⟩
        · have h3 := g2 e' he' (by omega)
          have h4 := hne m hmm
          have h5 := hne m' hmem'
          have hmne : m ≠ m' := by
            intro heq
            subst heq
            omega
          have hap : apart m m' ∨ apart m' m := by
            obtain ⟨x, hx, rfl⟩ := List.getElem_of_mem hmm
            obtain ⟨y, hy, rfl⟩ := List.getElem_of_mem hmem'
            have hxy : x ≠ y := by
              intro heq
              subst heq
              exact hmne rfl
            rcases Nat.lt_or_gt_of_ne hxy with hlt | hlt
            · exact .inl (List.pairwise_iff_getElem.1 hd x y hx hy hlt)
            · exact .inr (List.pairwise_iff_getElem.1 hd y x hy hx hlt)
          unfold apart at hap
          omega
        · have := g2 e' he'
          omega

end Verif.ProfileProto
