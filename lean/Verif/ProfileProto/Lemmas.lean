import Verif.ProfileProto.Spec
/- Tables: what interning keeps. -/
namespace Verif.ProfileProto

/-! ### Reading -/

theorem readAll_append {f : α → Option β} : ∀ {l r : List α} {a b : List β},
    readAll f l = some a → readAll f r = some b → readAll f (l ++ r) = some (a ++ b)
  | [], r, a, b, h1, h2 => by
    simp only [readAll, Option.some.injEq] at h1
    subst h1
    simpa using h2
  | x :: l, r, a, b, h1, h2 => by
    simp only [readAll] at h1
    split at h1
    · rename_i y s hx hl
      cases h1
      simp only [List.cons_append, readAll, hx, readAll_append hl h2]
    · cases h1

theorem readAll_mono {f g : α → Option β} (h : ∀ a b, f a = some b → g a = some b) :
    ∀ {l : List α} {r : List β}, readAll f l = some r → readAll g l = some r
  | [], r, h1 => by
    simp only [readAll, Option.some.injEq] at h1 ⊢
    exact h1
  | x :: l, r, h1 => by
    simp only [readAll] at h1
    split at h1
    · rename_i y s hx hl
      cases h1
      simp only [readAll, h _ _ hx, readAll_mono h hl]
    · cases h1

theorem readAll_one {f : α → Option β} {a : α} {b : β} (h : f a = some b) :
    readAll f [a] = some [b] := by simp only [readAll, h]

theorem readAll_nil {f : α → Option β} : readAll f [] = some [] := rfl

/-- The tables only grow. -/
structure Grows (p q : Proto) : Prop where
  strs : ∃ t, q.strings = p.strings ++ t
  locs : ∃ t, q.locations = p.locations ++ t

theorem Grows.refl (p : Proto) : Grows p p := ⟨⟨[], by simp⟩, ⟨[], by simp⟩⟩

theorem Grows.trans {p q r : Proto} (h : Grows p q) (h' : Grows q r) : Grows p r := by
  obtain ⟨⟨a, ha⟩, ⟨b, hb⟩⟩ := h
  obtain ⟨⟨c, hc⟩, ⟨d, hd⟩⟩ := h'
  exact ⟨⟨a ++ c, by rw [hc, ha, List.append_assoc]⟩, ⟨b ++ d, by rw [hd, hb, List.append_assoc]⟩⟩

theorem Grows.str {p q : Proto} (h : Grows p q) {i : Nat} {s : String}
    (hs : p.strings[i]? = some s) : q.strings[i]? = some s := by
  obtain ⟨t, ht⟩ := h.strs
  rw [ht, List.getElem?_append_left (List.getElem?_eq_some_iff.1 hs).1, hs]

theorem Grows.loc {p q : Proto} (h : Grows p q) {i a : Nat} (hs : readLoc p i = some a) :
    readLoc q i = some a := by
  obtain ⟨t, ht⟩ := h.locs
  unfold readLoc at hs ⊢
  rw [ht, List.find?_append]
  cases hf : p.locations.find? fun l => l.id = i with
  | none => rw [hf] at hs; cases hs
  | some l => rw [hf] at hs; exact hs

theorem Grows.label {p q : Proto} (h : Grows p q) {l : Label} {x : PlainLabel}
    (hs : readLabel p l = some x) : readLabel q l = some x := by
  unfold readLabel at hs ⊢
  split at hs
  · rename_i a b c ha hb hc
    rw [h.str ha, h.str hb, h.str hc]
    exact hs
  · cases hs

theorem Grows.pair {p q : Proto} (h : Grows p q) {l : Nat × Nat} {x : String × String}
    (hs : readPair p l = some x) : readPair q l = some x := by
  unfold readPair at hs ⊢
  split at hs
  · rename_i a b ha hb
    rw [h.str ha, h.str hb]
    exact hs
  · cases hs

theorem Grows.mapping {p q : Proto} (h : Grows p q) {l : Mapping} {x : Segment}
    (hs : readMapping p l = some x) : readMapping q l = some x := by
  unfold readMapping at hs ⊢
  split at hs
  · rename_i a b ha hb
    rw [h.str ha, h.str hb]
    exact hs
  · cases hs

theorem Grows.sample {p q : Proto} (h : Grows p q) {l : PSample} {x : PlainSample}
    (hs : readSample p l = some x) : readSample q l = some x := by
  unfold readSample at hs ⊢
  split at hs
  · rename_i a b ha hb
    rw [readAll_mono (fun _ _ => h.loc) ha, readAll_mono (fun _ _ => h.label) hb]
    exact hs
  · cases hs

/-! ### Invariant -/

structure Inv (b : Builder) : Prop where
  s0 : b.p.strings[0]? = some ""
  sfwd : ∀ (s : String) (i : Nat), b.strIdx.lookup s = some i → b.p.strings[i]? = some s
  sbwd : ∀ (i : Nat) (s : String), b.p.strings[i + 1]? = some s →
    b.strIdx.lookup s = some (i + 1) ∧ s ≠ ""
  lfwd : ∀ (a i : Nat), b.locIdx.lookup a = some i → readLoc b.p i = some a
  lids : ∀ (k : Nat) (l : Location), b.p.locations[k]? = some l → l.id = k + 1
  lbwd : ∀ l ∈ b.p.locations, b.locIdx.lookup l.addr = some l.id
  lmap : ∀ l ∈ b.p.locations, b.mappingOf l.addr = some l.mapping
  mids : ∀ (k : Nat) (m : Mapping), b.p.mappings[k]? = some m → m.id = k + 1
  msort : b.mapIdx.Pairwise (·.1 < ·.1)
  mfwd : ∀ e ∈ b.mapIdx, ∃ m, b.p.mappings[e.2]? = some m ∧ m.start = e.1
  mall : ∀ m ∈ b.p.mappings, ∃ e ∈ b.mapIdx, e.1 = m.start

/-- Everything but the tables of strings and locations is the same, and those grow. -/
structure Ext (b c : Builder) : Prop where
  grows : Grows b.p c.p
  maps : c.p.mappings = b.p.mappings
  mapIdx : c.mapIdx = b.mapIdx
  samples : c.p.samples = b.p.samples
  types : c.p.sampleTypes = b.p.sampleTypes
  period : c.p.periodType = b.p.periodType
  dflt : c.p.defaultType = b.p.defaultType
  drop : c.p.dropFrames = b.p.dropFrames
  duration : c.p.duration = b.p.duration
  time : c.p.time = b.p.time

theorem Ext.refl (b : Builder) : Ext b b := ⟨.refl _, rfl, rfl, rfl, rfl, rfl, rfl, rfl, rfl, rfl⟩

theorem Ext.trans {a b c : Builder} (h : Ext a b) (h' : Ext b c) : Ext a c :=
  ⟨h.grows.trans h'.grows, h'.maps.trans h.maps, h'.mapIdx.trans h.mapIdx,
   h'.samples.trans h.samples, h'.types.trans h.types, h'.period.trans h.period,
   h'.dflt.trans h.dflt, h'.drop.trans h.drop, h'.duration.trans h.duration, h'.time.trans h.time⟩

theorem mappingOf_congr {b c : Builder} (h1 : c.p.mappings = b.p.mappings)
    (h2 : c.mapIdx = b.mapIdx) (a : Nat) : c.mappingOf a = b.mappingOf a := by
  unfold Builder.mappingOf Builder.iterator
  rw [h1, h2]

theorem inv_congr {b c : Builder} (inv : Inv b) (h1 : c.p.strings = b.p.strings)
    (h2 : c.p.locations = b.p.locations) (h3 : c.p.mappings = b.p.mappings)
    (h4 : c.mapIdx = b.mapIdx) (h5 : c.strIdx = b.strIdx) (h6 : c.locIdx = b.locIdx) : Inv c := by
  have hr : ∀ i, readLoc c.p i = readLoc b.p i := fun i => by unfold readLoc; rw [h2]
  constructor
  · rw [h1]; exact inv.s0
  · rw [h1, h5]; exact inv.sfwd
  · rw [h1, h5]; exact inv.sbwd
  · intro a i; rw [hr, h6]; exact inv.lfwd a i
  · rw [h2]; exact inv.lids
  · rw [h2, h6]; exact inv.lbwd
  · rw [h2]; intro l hl; rw [mappingOf_congr h3 h4]; exact inv.lmap l hl
  · rw [h3]; exact inv.mids
  · rw [h4]; exact inv.msort
  · rw [h3, h4]; exact inv.mfwd
  · rw [h3, h4]; exact inv.mall

theorem inv_empty : Inv Builder.empty := by
  constructor <;> simp [Builder.empty]

/-! ### Strings -/

theorem intern_ok {b : Builder} (inv : Inv b) (s : String) :
    Inv (b.internString s).1 ∧ Ext b (b.internString s).1 ∧
    (b.internString s).1.p.strings[(b.internString s).2]? = some s ∧
    (b.internString s).1.p.locations = b.p.locations := by
  unfold Builder.internString
  by_cases hs : s = ""
  · rw [if_pos hs]
    exact ⟨inv, .refl b, by rw [hs]; exact inv.s0, rfl⟩
  · rw [if_neg hs]
    dsimp only
    cases hl : b.strIdx.lookup s with
    | some i => exact ⟨inv, .refl b, inv.sfwd s i hl, rfl⟩
    | none =>
      have hg : Grows b.p { b.p with strings := b.p.strings ++ [s] } :=
        ⟨⟨[s], rfl⟩, ⟨[], by simp⟩⟩
      have hpos : 0 < b.p.strings.length := (List.getElem?_eq_some_iff.1 inv.s0).1
      refine ⟨?_, ⟨hg, rfl, rfl, rfl, rfl, rfl, rfl, rfl, rfl, rfl⟩, ?_, rfl⟩
      · constructor
        · exact hg.str inv.s0
        · intro x i hx
          simp only [List.lookup_cons] at hx
          split at hx
          · rename_i he
            cases hx
            have : x = s := by simpa using he
            subst this
            simp
          · exact hg.str (inv.sfwd x i hx)
        · intro i x hx
          dsimp only at hx
          rw [List.getElem?_append] at hx
          simp only [List.lookup_cons]
          split at hx
          · rename_i hlt
            obtain ⟨h1, h2⟩ := inv.sbwd i x hx
            have hne : (x == s) = false := by
              rw [beq_eq_false_iff_ne]
              intro he
              subst he
              rw [hl] at h1
              cases h1
            rw [hne]
            exact ⟨h1, h2⟩
          · rename_i hge
            have : i + 1 - b.p.strings.length = 0 := by
              apply Classical.byContradiction
              intro hne
              rw [List.getElem?_eq_none (by simp; omega)] at hx
              cases hx
            rw [this] at hx
            simp only [List.getElem?_cons_zero, Option.some.injEq] at hx
            subst hx
            rw [beq_self_eq_true]
            simp only [Option.some.injEq]
            exact ⟨by omega, hs⟩
        · exact fun a i h => inv.lfwd a i h
        · exact inv.lids
        · exact inv.lbwd
        · exact fun l h => inv.lmap l h
        · exact inv.mids
        · exact inv.msort
        · exact inv.mfwd
        · exact inv.mall
      · simp

theorem internList_ok : ∀ {names : List String} {b : Builder}, Inv b →
    Inv (b.internList names).1 ∧ Ext b (b.internList names).1 ∧
    (b.internList names).1.p.locations = b.p.locations ∧
    (∀ s i, (s, i) ∈ (b.internList names).2 → (b.internList names).1.p.strings[i]? = some s) ∧
    ∀ s ∈ names, ∃ i, (s, i) ∈ (b.internList names).2
  | [], b, inv => ⟨inv, .refl b, rfl, (fun _ _ h => by cases h), (fun _ h => by cases h)⟩
  | n :: l, b, inv => by
    obtain ⟨i1, e1, r1, q1⟩ := intern_ok inv n
    simp only [Builder.internList]
    obtain ⟨i2, e2, q2, r2, a2⟩ := internList_ok (names := l) i1
    refine ⟨i2, e1.trans e2, q2.trans q1, ?_, ?_⟩
    · intro s i h
      rcases List.mem_cons.1 h with h | h
      · cases h
        exact e2.grows.str r1
      · exact r2 s i h
    · intro s hs
      rcases List.mem_cons.1 hs with h | h
      · subst h
        exact ⟨_, List.mem_cons_self⟩
      · obtain ⟨i, hi⟩ := a2 s h
        exact ⟨i, List.mem_cons_of_mem _ hi⟩

theorem lookup_mem {l : List (String × Nat)} {s : String} (h : ∃ i, (s, i) ∈ l) :
    (s, idOf l s) ∈ l := by
  obtain ⟨i, hi⟩ := h
  unfold idOf
  induction l with
  | nil => cases hi
  | cons e l ih =>
    obtain ⟨a, n⟩ := e
    simp only [List.lookup_cons]
    split
    · rename_i he
      have : s = a := by simpa using he
      subst this
      exact List.mem_cons_self
    · rename_i he
      rcases List.mem_cons.1 hi with h | h
      · cases h
        simp at he
      · exact List.mem_cons_of_mem _ (ih h)

/-- What the constants stand for. -/
def Names (p : Proto) (v : String → Nat) (names : List String) : Prop :=
  ∀ s ∈ names, p.strings[v s]? = some s

theorem names_ok {names : List String} {b : Builder} (inv : Inv b) :
    Inv (b.internList names).1 ∧ Ext b (b.internList names).1 ∧
    Names (b.internList names).1.p (idOf (b.internList names).2) names := by
  obtain ⟨i, e, _, r, a⟩ := internList_ok (names := names) inv
  exact ⟨i, e, fun s hs => r _ _ (lookup_mem (a s hs))⟩

theorem Names.mono {p q : Proto} {v : String → Nat} {names : List String} (h : Names p v names)
    (g : Grows p q) : Names q v names := fun s hs => g.str (h s hs)

/-! ### Locations -/

theorem mappingOf_some {b : Builder} (inv : Inv b) (a : Nat) : ∃ m, b.mappingOf a = some m := by
  unfold Builder.mappingOf
  by_cases he : b.mapIdx.isEmpty
  · rw [if_pos he]; exact ⟨0, rfl⟩
  · rw [if_neg he]
    have hlen : 0 < b.mapIdx.length := by
      cases hm : b.mapIdx with
      | nil => rw [hm] at he; simp at he
      | cons _ _ => simp
    have hle : b.mapIdx.findIdx (fun e => decide (a < e.1)) ≤ b.mapIdx.length :=
      List.findIdx_le_length
    unfold Builder.iterator
    dsimp only
    generalize b.mapIdx.findIdx (fun e => decide (a < e.1)) = ub at hle
    have hidx : (if ub ≠ 0 then ub - 1 else ub) < b.mapIdx.length := by split <;> omega
    generalize (if ub ≠ 0 then ub - 1 else ub) = k at hidx
    rw [List.getElem?_eq_getElem hidx]
    obtain ⟨m, h1, h2⟩ := inv.mfwd _ (List.getElem_mem hidx)
    dsimp only
    rw [h1]
    dsimp only
    rw [if_neg (by simp [h2])]
    split <;> exact ⟨_, rfl⟩

theorem location_ok {b : Builder} (inv : Inv b) (a : Nat) :
    ∃ c i, b.internLocation a = some (c, i) ∧ Inv c ∧ Ext b c ∧ readLoc c.p i = some a := by
  unfold Builder.internLocation
  dsimp only
  cases hl : b.locIdx.lookup a with
  | some i => exact ⟨b, i, rfl, inv, .refl b, inv.lfwd a i hl⟩
  | none =>
    obtain ⟨m, hm⟩ := mappingOf_some inv a
    rw [hm]
    have hg : Grows b.p { b.p with
        locations := b.p.locations ++ [⟨b.p.locations.length + 1, a, m⟩] } :=
      ⟨⟨[], by simp⟩, ⟨_, rfl⟩⟩
    have hnew : readLoc { b.p with
        locations := b.p.locations ++ [⟨b.p.locations.length + 1, a, m⟩] }
        (b.p.locations.length + 1) = some a := by
      unfold readLoc
      dsimp only
      rw [List.find?_append]
      have : (b.p.locations.find? fun l => l.id = b.p.locations.length + 1) = none := by
        rw [List.find?_eq_none]
        intro l hmem
        obtain ⟨k, hk⟩ := List.getElem?_of_mem hmem
        have h1 := inv.lids k l hk
        have h2 := (List.getElem?_eq_some_iff.1 hk).1
        simp only [decide_eq_true_eq]
        omega
      rw [this]
      simp
    refine ⟨_, _, rfl, ?_, ⟨hg, rfl, rfl, rfl, rfl, rfl, rfl, rfl, rfl, rfl⟩, hnew⟩
    constructor
    · exact inv.s0
    · exact inv.sfwd
    · exact inv.sbwd
    · intro x i hx
      simp only [List.lookup_cons] at hx
      split at hx
      · rename_i he
        cases hx
        have : x = a := by simpa using he
        subst this
        exact hnew
      · exact hg.loc (inv.lfwd x i hx)
    · intro k l hk
      dsimp only at hk
      rw [List.getElem?_append] at hk
      split at hk
      · exact inv.lids k l hk
      · have : k - b.p.locations.length = 0 := by
          apply Classical.byContradiction
          intro hne
          rw [List.getElem?_eq_none (by simp; omega)] at hk
          cases hk
        rw [this] at hk
        simp only [List.getElem?_cons_zero, Option.some.injEq] at hk
        subst hk
        dsimp only
        omega
    · intro l hmem
      simp only [List.lookup_cons]
      rcases List.mem_append.1 hmem with h | h
      · have h1 := inv.lbwd l h
        have hne : (l.addr == a) = false := by
          rw [beq_eq_false_iff_ne]
          intro he
          rw [he, hl] at h1
          cases h1
        rw [hne]
        exact h1
      · simp only [List.mem_singleton] at h
        subst h
        simp
    · intro l hmem
      rcases List.mem_append.1 hmem with h | h
      · exact inv.lmap l h
      · simp only [List.mem_singleton] at h
        subst h
        exact hm
    · exact inv.mids
    · exact inv.msort
    · exact inv.mfwd
    · exact inv.mall

theorem callOf_eq {x : Nat} (h : x < 2 ^ 64) : (x + (2 ^ 64 - 1)) % 2 ^ 64 = callOf x := by
  unfold callOf
  split <;> omega

theorem stack_ok : ∀ {l : List Nat} {b : Builder}, Inv b → (∀ x ∈ l, x < 2 ^ 64) →
    ∃ c ids, b.internStack l = some (c, ids) ∧ Inv c ∧ Ext b c ∧
      readAll (readLoc c.p) ids = some (l.map callOf)
  | [], b, inv, _ => ⟨b, [], rfl, inv, .refl b, rfl⟩
  | x :: l, b, inv, hx => by
    obtain ⟨c, i, h1, h2, h3, h4⟩ := location_ok inv ((x + (2 ^ 64 - 1)) % 2 ^ 64)
    obtain ⟨d, ids, g1, g2, g3, g4⟩ := stack_ok (l := l) h2
      (fun y hy => hx y (List.mem_cons_of_mem _ hy))
    refine ⟨d, i :: ids, ?_, g2, h3.trans g3, ?_⟩
    · simp only [Builder.internStack, h1, g1]
    · simp only [readAll, g3.grows.loc h4, g4, List.map_cons,
        callOf_eq (hx x List.mem_cons_self)]

end Verif.ProfileProto
