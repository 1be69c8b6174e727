import Verif.Experiments.Spec
namespace Verif.Experiments

/-! ### The parser -/

theorem item_no_comma {t r : Str} (h : ',' ∉ r) : IsItem t r ↔ t = r := by
  constructor
  · rintro ⟨pre, post, he, ht, hpre, hpost⟩
    have h1 : pre = [] := by
      rcases hpre with h1 | ⟨p, h1⟩
      · exact h1
      · exact absurd (by rw [he, h1]; simp) h
    have h2 : post = [] := by
      rcases hpost with h2 | ⟨p, h2⟩
      · exact h2
      · exact absurd (by rw [he, h2]; simp) h
    subst h1 h2
    simpa using he.symm
  · rintro rfl
    exact ⟨[], [], by simp, h, Or.inl rfl, Or.inl rfl⟩

theorem first_comma {a t x y : Str} (ha : ',' ∉ a) (ht : ',' ∉ t)
    (h : t ++ ',' :: x = a ++ ',' :: y) : t = a ∧ x = y := by
  rcases List.append_eq_append_iff.1 h with ⟨c, h1, h2⟩ | ⟨c, h1, h2⟩
  · cases c with
    | nil => simp at h1 h2; exact ⟨h1.symm, h2⟩
    | cons d c =>
      simp only [List.cons_append, List.cons.injEq] at h2
      exact absurd (by rw [h1, ← h2.1]; simp) ha
  · cases c with
    | nil => simp at h1 h2; exact ⟨h1, h2.symm⟩
    | cons d c =>
      simp only [List.cons_append, List.cons.injEq] at h2
      exact absurd (by rw [h1, ← h2.1]; simp) ht

theorem item_comma {t a q : Str} (ha : ',' ∉ a) :
    IsItem t (a ++ ',' :: q) ↔ t = a ∨ IsItem t q := by
  constructor
  · rintro ⟨pre, post, he, ht, hpre, hpost⟩
    rcases hpre with h1 | ⟨p, h1⟩
    · subst h1
      rcases hpost with h2 | ⟨q', h2⟩
      · subst h2
        simp only [List.nil_append, List.append_nil] at he
        exact absurd (by rw [← he]; simp) ht
      · subst h2
        simp only [List.nil_append] at he
        exact Or.inl (first_comma ha ht he.symm).1
    · subst h1
      right
      have he' : a ++ ',' :: q = p ++ ',' :: (t ++ post) := by
        rw [he]
        simp
      rcases List.append_eq_append_iff.1 he' with ⟨c, h1, h2⟩ | ⟨c, h1, h2⟩
      · cases c with
        | nil =>
          simp at h2
          exact ⟨[], post, by simp [h2], ht, Or.inl rfl, hpost⟩
        | cons d c =>
          simp only [List.cons_append, List.cons.injEq] at h2
          refine ⟨c ++ [','], post, by rw [h2.2]; simp, ht, Or.inr ⟨c, rfl⟩, hpost⟩
      · cases c with
        | nil =>
          simp at h2
          exact ⟨[], post, by simp [h2], ht, Or.inl rfl, hpost⟩
        | cons d c =>
          simp only [List.cons_append, List.cons.injEq] at h2
          exact absurd (by rw [h1, ← h2.1]; simp) ha
  · rintro (h | ⟨pre, post, he, ht, hpre, hpost⟩)
    · subst h
      exact ⟨[], ',' :: q, by simp, ha, Or.inl rfl, Or.inr ⟨q, rfl⟩⟩
    · refine ⟨a ++ ',' :: pre, post, by rw [he]; simp, ht, Or.inr ?_, hpost⟩
      rcases hpre with h1 | ⟨p, h1⟩
      · subst h1
        exact ⟨a, rfl⟩
      · subst h1
        exact ⟨a ++ ',' :: p, by simp⟩

theorem mem_parseFrom (s t : Str) : ∀ (fuel pos : Nat), s.length - pos < fuel →
    (t ∈ parseFrom s fuel pos ↔ IsItem t (s.drop pos))
  | 0, _, h => by omega
  | fuel + 1, pos, h => by
    unfold parseFrom find
    cases hf : (s.drop pos).findIdx? (· == ',') with
    | none =>
      simp only [Option.map_none, List.mem_singleton]
      rw [item_no_comma]
      intro hc
      have := List.findIdx?_eq_none_iff.1 hf ',' hc
      simp at this
    | some i =>
      simp only [Option.map_some]
      obtain ⟨hi, h1, h2⟩ := List.findIdx?_eq_some_iff_getElem.1 hf
      rw [List.length_drop] at hi
      have hlt : i < (s.drop pos).length := by rw [List.length_drop]; exact hi
      have hdec : s.drop pos = (s.drop pos).take i ++ ',' :: s.drop (i + pos + 1) := by
        have e := List.take_append_drop i (s.drop pos)
        rw [List.drop_eq_getElem_cons hlt, beq_iff_eq.1 h1, List.drop_drop] at e
        rw [show i + pos + 1 = pos + (i + 1) by omega]
        exact e.symm
      have ha : ',' ∉ (s.drop pos).take i := by
        intro hc
        obtain ⟨j, hj, hj'⟩ := List.getElem_of_mem hc
        rw [List.length_take] at hj
        have := h2 j (by omega)
        rw [List.getElem_take] at hj'
        simp [hj'] at this
      rw [List.mem_cons, mem_parseFrom s t fuel (i + pos + 1) (by omega), Nat.add_sub_cancel,
        ← item_comma ha, ← hdec]

theorem mem_parse (s t : Str) : t ∈ parse s ↔ IsItem t s := by
  have := mem_parseFrom s t (s.length + 1) 0 (by omega)
  simpa [parse] using this

/-! ### The table -/

theorem Valid.id_inj {n : Nat} {tbl : List Config} (hv : Valid n tbl) {c d : Config} (hc : c ∈ tbl)
    (hd : d ∈ tbl) (h : c.id = d.id) : c = d := by
  have key : ∀ (l : List Config), (l.map (·.id)).Nodup → c ∈ l → d ∈ l → c = d := by
    intro l
    induction l with
    | nil => intro _ h; cases h
    | cons a l ih =>
      intro hn hc hd
      rw [List.map_cons, List.nodup_cons] at hn
      rcases List.mem_cons.1 hc with rfl | hc'
      · rcases List.mem_cons.1 hd with rfl | hd'
        · rfl
        · exact absurd (List.mem_map.2 ⟨d, hd', h.symm⟩) hn.1
      · rcases List.mem_cons.1 hd with rfl | hd'
        · exact absurd (List.mem_map.2 ⟨c, hc', h⟩) hn.1
        · exact ih hn.2 hc' hd'
  exact key tbl hv.ids hc hd

theorem Valid.name_inj {n : Nat} {tbl : List Config} (hv : Valid n tbl) {c d : Config}
    (hc : c ∈ tbl) (hd : d ∈ tbl) (h : c.name = d.name) : c = d := by
  have key : ∀ (l : List Config), (l.map (·.name)).Nodup → c ∈ l → d ∈ l → c = d := by
    intro l
    induction l with
    | nil => intro _ h; cases h
    | cons a l ih =>
      intro hn hc hd
      rw [List.map_cons, List.nodup_cons] at hn
      rcases List.mem_cons.1 hc with rfl | hc'
      · rcases List.mem_cons.1 hd with rfl | hd'
        · rfl
        · exact absurd (List.mem_map.2 ⟨d, hd', h.symm⟩) hn.1
      · rcases List.mem_cons.1 hd with rfl | hd'
        · exact absurd (List.mem_map.2 ⟨c, hc', h⟩) hn.1
        · exact ih hn.2 hc' hd'
  exact key tbl hv.names hc hd

theorem lookup_iff {n : Nat} {tbl : List Config} (hv : Valid n tbl) {c : Config} (hc : c ∈ tbl)
    (t : Str) : lookup tbl t = some c.id ↔ t = c.name := by
  unfold lookup
  constructor
  · intro h
    rw [Option.map_eq_some_iff] at h
    obtain ⟨d, hd, he⟩ := h
    have hm := List.mem_of_find?_eq_some hd
    have hn := List.find?_some hd
    rw [← hv.id_inj hm hc he]
    exact (beq_iff_eq.1 hn).symm
  · rintro rfl
    cases hf : tbl.find? (fun d => d.name == c.name) with
    | none =>
      have := List.find?_eq_none.1 hf c hc
      simp at this
    | some d =>
      have hm := List.mem_of_find?_eq_some hf
      have hn := List.find?_some hf
      rw [hv.name_inj hm hc (beq_iff_eq.1 hn)]
      rfl

/-! ### The buffer -/

/-- Updating the buffer at the places `f` says. -/
theorem foldl_set {α : Type} (f : α → Option Nat) (v : Bool) (k : Nat) :
    ∀ (l : List α) (b : List Bool), k < b.length →
    (l.foldl (fun b a => match f a with | some i => b.set i v | none => b) b)[k]? =
      (if ∃ a ∈ l, f a = some k then some v else b[k]?) ∧
    (l.foldl (fun b a => match f a with | some i => b.set i v | none => b) b).length = b.length
  | [], b, _ => by simp
  | a :: l, b, hk => by
    rw [List.foldl_cons]
    cases hf : f a with
    | none =>
      obtain ⟨h1, h2⟩ := foldl_set f v k l b hk
      simp only
      refine ⟨?_, h2⟩
      rw [h1]
      simp [hf]
    | some i =>
      simp only
      obtain ⟨h1, h2⟩ := foldl_set f v k l (b.set i v) (by simpa using hk)
      refine ⟨?_, by rw [h2, List.length_set]⟩
      rw [h1]
      by_cases he : ∃ a' ∈ l, f a' = some k
      · rw [if_pos he, if_pos]
        obtain ⟨a', h3, h4⟩ := he
        exact ⟨a', List.mem_cons_of_mem _ h3, h4⟩
      · rw [if_neg he]
        by_cases hik : i = k
        · subst hik
          rw [if_pos ⟨a, by simp, hf⟩]
          simp [hk]
        · rw [if_neg, List.getElem?_set_ne hik]
          rintro ⟨a', h3, h4⟩
          rcases List.mem_cons.1 h3 with rfl | h3
          · rw [hf] at h4
            exact hik (Option.some.inj h4)
          · exact he ⟨a', h3, h4⟩

theorem applyTokens_get {n : Nat} {tbl : List Config} (hv : Valid n tbl) {c : Config}
    (hc : c ∈ tbl) (v : Bool) (s : Str) {b : List Bool} (hb : b.length = n) :
    ((applyTokens tbl v (parse s) b)[c.id]? = some true ↔
      if v then IsItem c.name s ∨ b[c.id]? = some true
      else ¬ IsItem c.name s ∧ b[c.id]? = some true) ∧
    (applyTokens tbl v (parse s) b).length = n := by
  obtain ⟨h1, h2⟩ := foldl_set (fun t => lookup tbl t) v c.id (parse s) b
    (by rw [hb]; exact hv.lt c hc)
  refine ⟨?_, by rw [← hb]; exact h2⟩
  have hiff : (∃ a ∈ parse s, lookup tbl a = some c.id) ↔ IsItem c.name s := by
    constructor
    · rintro ⟨a, ha, hl⟩
      rw [(lookup_iff hv hc a).1 hl] at ha
      exact (mem_parse s c.name).1 ha
    · intro h
      exact ⟨c.name, (mem_parse s c.name).2 h, (lookup_iff hv hc _).2 rfl⟩
  have h1' : (applyTokens tbl v (parse s) b)[c.id]? =
      if ∃ a ∈ parse s, lookup tbl a = some c.id then some v else b[c.id]? := h1
  rw [h1']
  by_cases hi : IsItem c.name s
  · rw [if_pos (hiff.2 hi)]
    cases v <;> simp [hi]
  · rw [if_neg (fun h => hi (hiff.1 h))]
    cases v <;> simp [hi]

theorem foldl_cond (p : Config → Bool) (v : Bool) {n : Nat} {tbl : List Config}
    (hv : Valid n tbl) {c : Config} (hc : c ∈ tbl) {b : List Bool} (hb : b.length = n) :
    (tbl.foldl (fun b c => if p c then b.set c.id v else b) b)[c.id]? =
      (if p c then some v else b[c.id]?) ∧
    (tbl.foldl (fun b c => if p c then b.set c.id v else b) b).length = n := by
  have hfun : (fun (b : List Bool) (c : Config) => if p c then b.set c.id v else b) =
      (fun b a => match (if p a then some a.id else none : Option Nat) with
        | some i => b.set i v
        | none => b) := by
    funext b a
    cases p a <;> rfl
  obtain ⟨h1, h2⟩ := foldl_set (fun a : Config => if p a then some a.id else none) v c.id tbl b
    (by rw [hb]; exact hv.lt c hc)
  rw [hfun]
  refine ⟨?_, by rw [← hb]; exact h2⟩
  rw [h1]
  have hiff : (∃ a ∈ tbl, (if p a then some a.id else none) = some c.id) ↔ p c = true := by
    constructor
    · rintro ⟨a, ha, h⟩
      cases hp : p a with
      | false => simp [hp] at h
      | true =>
        simp only [hp, if_true, Option.some.injEq] at h
        rw [← hv.id_inj ha hc h]
        exact hp
    · intro h
      exact ⟨c, hc, by simp [h]⟩
  by_cases hp : p c = true
  · rw [if_pos (hiff.2 hp), if_pos hp]
  · rw [if_neg (fun h => hp (hiff.1 h)), if_neg hp]

theorem clear_get (p : Config → Bool) {n : Nat} {tbl : List Config} (hv : Valid n tbl) {c : Config}
    (hc : c ∈ tbl) {b : List Bool} (hb : b.length = n) :
    ((clear p tbl b)[c.id]? = some true ↔ p c = false ∧ b[c.id]? = some true) ∧
      (clear p tbl b).length = n := by
  obtain ⟨h1, h2⟩ := foldl_cond p false hv hc hb
  refine ⟨?_, h2⟩
  unfold clear
  rw [h1]
  cases p c <;> simp

theorem rollouts_get (bucket : Str → Str → Option Nat) (host : Str) {n : Nat} {tbl : List Config}
    (hv : Valid n tbl) {c : Config} (hc : c ∈ tbl) {b : List Bool} (hb : b.length = n) :
    ((applyRollouts bucket host tbl b)[c.id]? = some true ↔
      (c.upper > 0 ∧ rolloutEnabled bucket c host = true) ∨ b[c.id]? = some true) ∧
      (applyRollouts bucket host tbl b).length = n := by
  have hfun : (fun (b : List Bool) (c : Config) =>
      if c.upper > 0 then if rolloutEnabled bucket c host then b.set c.id true else b else b) =
      (fun b c => if (decide (c.upper > 0) && rolloutEnabled bucket c host) = true
        then b.set c.id true else b) := by
    funext b a
    by_cases h : a.upper > 0 <;> simp [h]
  obtain ⟨h1, h2⟩ := foldl_cond (fun c => decide (c.upper > 0) && rolloutEnabled bucket c host)
    true hv hc hb
  unfold applyRollouts
  rw [hfun]
  refine ⟨?_, h2⟩
  rw [h1]
  by_cases h : c.upper > 0
  · cases hr : rolloutEnabled bucket c host <;> simp [h]
  · simp [h]

/-! ### The choice for tests -/

/-- Whether the hash chooses the experiment. -/
def hit (h : Nat) (hn : Str → Nat) (c : Config) : Bool :=
  !c.brittle && (h ^^^ hn c.name) % 3 == 0

theorem pickFold (h : Nat) (hn : Str → Nat) : ∀ (tbl : List Config)
    (st : List Bool × Nat × Option Nat),
    (tbl.foldl (pickStep h hn) st).1 =
      tbl.foldl (fun b c => if hit h hn c then b.set c.id true else b) st.1 ∧
    (tbl.foldl (pickStep h hn) st).2.1 = st.2.1 + (tbl.filter (hit h hn)).length ∧
    (((∀ d ∈ tbl, d.brittle = true) ∧ (tbl.foldl (pickStep h hn) st).2.2 = st.2.2) ∨
      ∃ pre c post, tbl = pre ++ c :: post ∧ c.brittle = false ∧
        (∀ d ∈ post, d.brittle = true) ∧ (tbl.foldl (pickStep h hn) st).2.2 = some c.id)
  | [], st => by simp
  | c :: tbl, st => by
    rw [List.foldl_cons, List.foldl_cons]
    obtain ⟨h1, h2, h3⟩ := pickFold h hn tbl (pickStep h hn st c)
    refine ⟨?_, ?_, ?_⟩
    · rw [h1]
      unfold pickStep hit
      cases c.brittle <;> simp
    · rw [h2]
      unfold pickStep
      cases hb : c.brittle with
      | true => simp [hit, hb]
      | false =>
        by_cases hh : (h ^^^ hn c.name) % 3 = 0
        · simp [hit, hb, hh]
          omega
        · simp [hit, hb, hh]
    · rcases h3 with ⟨h3, h4⟩ | ⟨pre, d, post, h3, h4, h5, h6⟩
      · cases hb : c.brittle with
        | true =>
          left
          refine ⟨?_, by rw [h4]; simp [pickStep, hb]⟩
          intro d hd
          rcases List.mem_cons.1 hd with rfl | hd
          · exact hb
          · exact h3 d hd
        | false =>
          right
          exact ⟨[], c, tbl, rfl, hb, h3, by rw [h4]; simp [pickStep, hb]⟩
      · right
        exact ⟨c :: pre, d, post, by rw [h3]; rfl, h4, h5, h6⟩

theorem last_unique {tbl : List Config} {pre pre' post post' : List Config} {c d : Config}
    (h1 : tbl = pre ++ c :: post) (h2 : tbl = pre' ++ d :: post') (hc : c.brittle = false)
    (hd : d.brittle = false) (hp : ∀ x ∈ post, x.brittle = true)
    (hp' : ∀ x ∈ post', x.brittle = true) : c = d := by
  rw [h1] at h2
  rcases List.append_eq_append_iff.1 h2 with ⟨l, e1, e2⟩ | ⟨l, e1, e2⟩
  · cases l with
    | nil => simp at e2; exact e2.1
    | cons x l =>
      simp only [List.cons_append, List.cons.injEq] at e2
      have := hp d (by rw [e2.2]; simp)
      rw [hd] at this
      cases this
  · cases l with
    | nil => simp at e2; exact e2.1.symm
    | cons x l =>
      simp only [List.cons_append, List.cons.injEq] at e2
      have := hp' c (by rw [e2.2]; simp)
      rw [hc] at this
      cases this

theorem pick_get {n : Nat} {tbl : List Config} (hv : Valid n tbl) (h : Nat) (hn : Str → Nat)
    {b : List Bool} (hb : b.length = n)
    (hf : ∀ d ∈ tbl, b[d.id]? = some false) :
    ∃ b', pick h hn tbl b = some b' ∧ b'.length = n ∧
      ∀ c ∈ tbl, b'[c.id]? = some true ↔ Picked tbl h hn c := by
  unfold pick
  by_cases h11 : h % 11 = 0
  · rw [if_neg (by simp [h11])]
    refine ⟨b, rfl, hb, ?_⟩
    intro c hc
    rw [hf c hc]
    simp [Picked, h11]
  · rw [if_pos (by simp [h11])]
    obtain ⟨h1, h2, h3⟩ := pickFold h hn tbl (b, 0, none)
    generalize tbl.foldl (pickStep h hn) (b, 0, none) = r at h1 h2 h3
    obtain ⟨b', cnt, last⟩ := r
    simp only at h1 h2 h3
    have hget : ∀ c ∈ tbl, b'[c.id]? = if hit h hn c then some true else some false := by
      intro c hc
      rw [h1, (foldl_cond (hit h hn) true hv hc hb).1, hf c hc]
    have hlen : b'.length = n := by
      rw [h1]
      cases tbl with
      | nil => simpa using hb
      | cons a l => exact (foldl_cond (hit h hn) true hv (c := a) (by simp) hb).2
    have hhit : ∀ c, hit h hn c = true ↔ c.brittle = false ∧ (h ^^^ hn c.name) % 3 = 0 := by
      intro c
      unfold hit
      cases c.brittle <;> simp
    by_cases hz : cnt = 0
    · subst hz
      have hnone : ∀ d ∈ tbl, hit h hn d = false := by
        intro d hd
        cases hh : hit h hn d with
        | false => rfl
        | true =>
          have : d ∈ tbl.filter (hit h hn) := List.mem_filter.2 ⟨hd, hh⟩
          have h0 : (tbl.filter (hit h hn)).length = 0 := by omega
          rw [List.length_eq_zero_iff] at h0
          rw [h0] at this
          cases this
      have hnone' : ∀ d ∈ tbl, d.brittle = false → (h ^^^ hn d.name) % 3 ≠ 0 := by
        intro d hd hbr hx
        have := (hhit d).2 ⟨hbr, hx⟩
        rw [hnone d hd] at this
        cases this
      rcases h3 with ⟨h3, h4⟩ | ⟨pre, d, post, h3, h4, h5, h6⟩
      · subst h4
        refine ⟨b', rfl, hlen, ?_⟩
        intro c hc
        rw [hget c hc, hnone c hc]
        simp [Picked, h3 c hc]
      · subst h6
        have hd : d ∈ tbl := by rw [h3]; simp
        have hbd : b'[d.id]? = some false := by rw [hget d hd, hnone d hd]; rfl
        simp only
        rw [if_pos (by simp [hbd])]
        refine ⟨_, rfl, by simpa using hlen, ?_⟩
        intro c hc
        by_cases hcd : c = d
        · subst hcd
          rw [List.getElem?_set_self (by rw [hlen]; exact hv.lt c hc)]
          simp only [true_iff]
          exact ⟨h11, h4, Or.inr ⟨hnone', pre, post, h3, h5⟩⟩
        · rw [List.getElem?_set_ne (fun he => hcd (hv.id_inj hc hd he.symm)), hget c hc, hnone c hc]
          constructor
          · intro hx
            simp at hx
          · rintro ⟨-, hcb, hx | ⟨-, pre', post', h7, h8⟩⟩
            · exact absurd hx (hnone' c hc hcb)
            · exact absurd (last_unique h7 h3 hcb h4 h8 h5) hcd
    · have hm : (match (b', cnt, last) with
          | (b', 0, some i) => if b'[i]? == some false then some (b'.set i true) else none
          | (b', _, _) => some b') = some b' := by
        cases cnt with
        | zero => exact absurd rfl hz
        | succ m => rfl
      refine ⟨b', hm, hlen, ?_⟩
      intro c hc
      rw [hget c hc]
      have hsome : ∃ d ∈ tbl, hit h hn d = true := by
        have : 0 < (tbl.filter (hit h hn)).length := by omega
        obtain ⟨d, hd⟩ := List.exists_mem_of_length_pos this
        exact ⟨d, List.mem_filter.1 hd⟩
      cases hh : hit h hn c with
      | true =>
        simp only [if_true, true_iff]
        obtain ⟨x1, x2⟩ := (hhit c).1 hh
        exact ⟨h11, x1, Or.inl x2⟩
      | false =>
        simp only [Bool.false_eq_true, if_false, Option.some.injEq, false_iff]
        rintro ⟨-, hcb, hx | ⟨hall, -⟩⟩
        · rw [(hhit c).2 ⟨hcb, hx⟩] at hh
          cases hh
        · obtain ⟨d, hd, hdh⟩ := hsome
          obtain ⟨x1, x2⟩ := (hhit d).1 hdh
          exact hall d hd x1 x2

end Verif.Experiments
