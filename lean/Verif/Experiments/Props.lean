import Verif.Experiments.Lemmas
/-
C63: the environment variables select experiments exactly as documented.
-/
namespace Verif.Experiments

/-- What the selection amounts to, for any table, any rollout mechanism and any host, when one of
the two variables is set or the process is not a test. -/
theorem select_exact {n : Nat} {tbl : List Config} (hv : Valid n tbl)
    (bucket : Str → Str → Option Nat) (h : Nat) (hn : Str → Nat)
    (target active disabled hostname : Str) (unset : Bool)
    (hun : unset = false ∨ target = []) :
    ∃ b, select n tbl bucket h hn target active disabled unset hostname = some b ∧
      b.length = n ∧
      ∀ c ∈ tbl, b[c.id]? = some true ↔
        (Asked active c.name ∨ (c.upper > 0 ∧ rolloutEnabled bucket c hostname = true)) ∧
          ¬ RuledOut disabled c.name ∧ c.forceDisable = false := by
  unfold select
  have hcond : (unset && !target.isEmpty) = false := by
    rcases hun with h | h
    · simp [h]
    · simp [h]
  simp only [hcond, Bool.false_eq_true, if_false, Option.map_some]
  have l0 : ∀ v, (List.replicate n v : List Bool).length = n := fun v => by simp
  have l1 : (if active == kEnableAll then List.replicate n true
      else List.replicate n false).length = n := by
    split <;> simp
  refine ⟨_, rfl, ?_, ?_⟩
  · cases tbl with
    | nil =>
      have ht : ∀ (v : Bool) (ts : List Str) (b : List Bool), applyTokens [] v ts b = b := by
        intro v ts
        induction ts with
        | nil => intro b; rfl
        | cons t ts ih =>
          intro b
          show applyTokens [] v ts b = b
          exact ih b
      simp only [clear, applyRollouts, List.foldl_nil, ht]
      split
      · exact l1
      · exact l1
    | cons a l =>
      have ha : a ∈ a :: l := by simp
      obtain ⟨-, l2⟩ := rollouts_get bucket hostname hv ha l1
      obtain ⟨-, l3⟩ := applyTokens_get hv ha true active l2
      obtain ⟨-, l4⟩ := clear_get (fun _ => true) hv ha l3
      have l5 : (if disabled == kDisableAll then clear (fun _ => true) (a :: l)
          (applyTokens (a :: l) true (parse active) (applyRollouts bucket hostname (a :: l)
            (if active == kEnableAll then List.replicate n true else List.replicate n false)))
          else (applyTokens (a :: l) true (parse active) (applyRollouts bucket hostname (a :: l)
            (if active == kEnableAll then List.replicate n true
              else List.replicate n false)))).length = n := by
        split
        · exact l4
        · exact l3
      obtain ⟨-, l6⟩ := applyTokens_get hv ha false disabled l5
      exact (clear_get (fun c => c.forceDisable) hv ha l6).2
  · intro c hc
    have hlt := hv.lt c hc
    have g1 : (if active == kEnableAll then List.replicate n true
        else List.replicate n false)[c.id]? = some true ↔ active = kEnableAll := by
      by_cases hA : active = kEnableAll
      · simp [hA, hlt]
      · simp [hA, hlt]
    obtain ⟨g2, l2⟩ := rollouts_get bucket hostname hv hc l1
    obtain ⟨g3, l3⟩ := applyTokens_get hv hc true active l2
    obtain ⟨g4, l4⟩ := clear_get (fun _ => true) hv hc l3
    generalize hb3 : applyTokens tbl true (parse active) (applyRollouts bucket hostname tbl
      (if active == kEnableAll then List.replicate n true else List.replicate n false)) = b3
      at g3 l3 g4 l4 ⊢
    have g5 : (if disabled == kDisableAll then clear (fun _ => true) tbl b3 else b3)[c.id]? =
        some true ↔ disabled ≠ kDisableAll ∧ b3[c.id]? = some true := by
      by_cases hD : disabled = kDisableAll
      · simp only [hD, beq_self_eq_true, if_true]
        rw [g4]
        simp
      · simp [hD]
    have l5 : (if disabled == kDisableAll then clear (fun _ => true) tbl b3 else b3).length = n := by
      split
      · exact l4
      · exact l3
    obtain ⟨g6, l6⟩ := applyTokens_get hv hc false disabled l5
    obtain ⟨g7, -⟩ := clear_get (fun c => c.forceDisable) hv hc l6
    rw [g7, g6, g5, g3, g2, g1]
    simp only [if_true, Bool.false_eq_true, if_false]
    unfold Asked RuledOut
    show _ ↔ ((active = kEnableAll ∨ _) ∨ _) ∧ ¬(disabled = kDisableAll ∨ _) ∧ _
    constructor
    · rintro ⟨x1, x2, x3, x4⟩
      refine ⟨?_, ?_, x1⟩
      · rcases x4 with x4 | x4 | x4
        · exact Or.inl (Or.inr x4)
        · exact Or.inr x4
        · exact Or.inl (Or.inl x4)
      · rintro (y | y)
        · exact x3 y
        · exact x2 y
    · rintro ⟨x1, x2, x3⟩
      refine ⟨x3, fun y => x2 (Or.inr y), fun y => x2 (Or.inl y), ?_⟩
      rcases x1 with (x1 | x1) | x1
      · exact Or.inr (Or.inr x1)
      · exact Or.inl x1
      · exact Or.inr (Or.inl x1)

theorem clear_length (p : Config → Bool) : ∀ (tbl : List Config) (b : List Bool),
    (clear p tbl b).length = b.length
  | [], _ => rfl
  | c :: tbl, b => by
    have := clear_length p tbl (if p c then b.set c.id false else b)
    show (clear p tbl (if p c then b.set c.id false else b)).length = _
    rw [this]
    split <;> simp

/-- A test that sets neither variable, when no rollout applies: no assertion fails, and exactly the
picked experiments are active. -/
theorem select_test {n : Nat} {tbl : List Config} (hv : Valid n tbl) (h : Nat) (hn : Str → Nat)
    (target hostname : Str) (ht : target ≠ []) :
    ∃ b, select n tbl noBucket h hn target [] [] true hostname = some b ∧
      b.length = n ∧
      ∀ c ∈ tbl, b[c.id]? = some true ↔ Picked tbl h hn c ∧ c.forceDisable = false := by
  obtain ⟨b0, h1, h2, h3⟩ := select_exact hv noBucket h hn target [] [] hostname false (Or.inl rfl)
  have hr : ∀ c, rolloutEnabled noBucket c hostname = false := by
    intro c
    unfold rolloutEnabled noBucket
    split <;> rfl
  unfold select at h1 ⊢
  have hc1 : (true && !target.isEmpty) = true := by
    cases target with
    | nil => exact absurd rfl ht
    | cons _ _ => rfl
  simp only [hc1, Bool.false_and, Bool.false_eq_true, if_false, List.isEmpty_nil, Bool.and_self,
    if_true, Option.map_some, Option.some.injEq] at h1 ⊢
  have e1 : (([] : Str) == kEnableAll) = false := by decide
  have e2 : (([] : Str) == kDisableAll) = false := by decide
  simp only [e1, e2, Bool.false_eq_true, if_false] at h1 ⊢
  have l1 : (List.replicate n false : List Bool).length = n := by simp
  have hb : ∀ c ∈ tbl, (applyTokens tbl false (parse []) (applyTokens tbl true (parse [])
      (applyRollouts noBucket hostname tbl (List.replicate n false))))[c.id]? = some false := by
    intro c hc
    obtain ⟨g2, l2⟩ := rollouts_get noBucket hostname hv hc l1
    obtain ⟨g3, l3⟩ := applyTokens_get hv hc true [] l2
    obtain ⟨g6, l6⟩ := applyTokens_get hv hc false [] l3
    have hlt := hv.lt c hc
    have hnot : ¬ (applyTokens tbl false (parse []) (applyTokens tbl true (parse [])
      (applyRollouts noBucket hostname tbl (List.replicate n false))))[c.id]? = some true := by
      rw [g6, g3, g2]
      simp only [Bool.false_eq_true, if_false, if_true, hr, and_false, false_or]
      rintro ⟨x1, x2 | x2⟩
      · exact x1 x2
      · simp [hlt] at x2
    generalize applyTokens tbl false (parse []) (applyTokens tbl true (parse [])
      (applyRollouts noBucket hostname tbl (List.replicate n false))) = b at hnot l6
    have hx := List.getElem?_eq_getElem (l := b) (by rw [l6]; exact hlt)
    rw [hx] at hnot ⊢
    cases hy : b[c.id]'(by rw [l6]; exact hlt) with
    | true => rw [hy] at hnot; exact absurd rfl hnot
    | false => rfl
  have hlen : (applyTokens tbl false (parse []) (applyTokens tbl true (parse [])
      (applyRollouts noBucket hostname tbl (List.replicate n false)))).length = n := by
    cases tbl with
    | nil => exact l1
    | cons a l =>
      have ha : a ∈ a :: l := by simp
      obtain ⟨-, l2⟩ := rollouts_get noBucket hostname hv ha l1
      obtain ⟨-, l3⟩ := applyTokens_get hv ha true [] l2
      exact (applyTokens_get hv ha false [] l3).2
  obtain ⟨b', p1, p2, p3⟩ := pick_get hv h hn hlen hb
  rw [p1]
  refine ⟨_, rfl, by rw [clear_length, p2], ?_⟩
  intro c hc
  rw [(clear_get (fun c => c.forceDisable) hv hc p2).1, p3 c hc]
  exact And.comm

/-- The shipped table is well formed. -/
theorem table_valid : Valid kNumExperiments table :=
  ⟨by decide +kernel, by decide +kernel, by decide +kernel⟩

/-- **C63**.  In a process that sets `BORG_EXPERIMENTS` or `BORG_DISABLE_EXPERIMENTS` (or that is
not a test), an experiment is active exactly if the first variable is
`enable-all-known-experiments` or lists its name, and the second is neither `all` nor lists its
name. -/
theorem active_exact (h : Nat) (hn : Str → Nat) (env : Env)
    (he : env.experiments ≠ none ∨ env.disable ≠ none ∨ env.testTarget.getD [] = [])
    (c : Config) (hc : c ∈ table) :
    ∃ v, isActive h hn env c.id = some v ∧
      (v = true ↔ Asked (env.experiments.getD []) c.name ∧
        ¬ RuledOut (env.disable.getD []) c.name) := by
  obtain ⟨b, h1, h2, h3⟩ := select_exact table_valid noBucket h hn (env.testTarget.getD [])
    (env.experiments.getD []) (env.disable.getD []) []
    (env.experiments.isNone && env.disable.isNone) (by
      rcases he with he | he | he
      · left
        cases hx : env.experiments with
        | none => exact absurd hx he
        | some _ => rfl
      · left
        cases hx : env.disable with
        | none => exact absurd hx he
        | some _ => simp
      · exact Or.inr he)
  have hlt : c.id < b.length := by rw [h2]; exact table_valid.lt c hc
  refine ⟨b[c.id], ?_, ?_⟩
  · unfold isActive selected
    rw [h1, Option.bind_some, List.getElem?_eq_getElem hlt]
  · have := h3 c hc
    rw [List.getElem?_eq_getElem hlt] at this
    simp only [Option.some.injEq] at this
    have hf : ∀ c ∈ table, c.forceDisable = false := by decide +kernel
    rw [this]
    simp [rolloutEnabled, hf c hc]

/-- **C63** (the documented switch).  With `BORG_DISABLE_EXPERIMENTS=all` no experiment is active,
whatever else is set. -/
theorem disable_all (h : Nat) (hn : Str → Nat) (env : Env) (he : env.disable = some "all".toList) :
    ∀ c ∈ table, isActive h hn env c.id = some false := by
  intro c hc
  obtain ⟨v, h1, h2⟩ := active_exact h hn env (by rw [he]; simp) c hc
  rw [h1]
  cases v with
  | false => rfl
  | true => exact absurd (Or.inl (by rw [he]; rfl)) (h2.1 rfl).2

/-- **C63** (the documented switch).  A name listed in `BORG_DISABLE_EXPERIMENTS` is inactive. -/
theorem disable_one (h : Nat) (hn : Str → Nat) (env : Env) (c : Config) (hc : c ∈ table)
    (pre post : List Str) (hne : ∀ s ∈ pre ++ post, ',' ∉ s)
    (he : env.disable = some (List.intercalate [','] (pre ++ c.name :: post))) :
    isActive h hn env c.id = some false := by
  obtain ⟨v, h1, h2⟩ := active_exact h hn env (by rw [he]; simp) c hc
  rw [h1]
  cases v with
  | false => rfl
  | true =>
    refine absurd (Or.inr ?_) (h2.1 rfl).2
    rw [he, Option.getD_some]
    have hcn : ∀ c ∈ table, ',' ∉ c.name := by decide +kernel
    have key : ∀ (pre : List Str), (∀ s ∈ pre, ',' ∉ s) →
        IsItem c.name (List.intercalate [','] (pre ++ c.name :: post)) := by
      intro pre
      induction pre with
      | nil =>
        intro _
        rw [List.nil_append]
        cases post with
        | nil =>
          simp only [List.intercalate, List.intersperse, List.flatten_cons, List.flatten_nil,
            List.append_nil]
          exact (item_no_comma (hcn c hc)).2 rfl
        | cons q post =>
          simp only [List.intercalate, List.intersperse, List.flatten_cons, List.singleton_append]
          exact (item_comma (hcn c hc)).2 (Or.inl rfl)
      | cons p pre ih =>
        intro hp
        have hi := ih (fun s hs => hp s (by simp [hs]))
        have : List.intercalate [','] (p :: (pre ++ c.name :: post)) =
            p ++ ',' :: List.intercalate [','] (pre ++ c.name :: post) := by
          cases hq : pre ++ c.name :: post with
          | nil => simp at hq
          | cons q qs => simp [List.intercalate, List.intersperse]
        rw [List.cons_append, this]
        exact (item_comma (hp p (by simp))).2 (Or.inr hi)
    exact key pre (fun s hs => hne s (by simp [hs]))

/-- **C63** (tests).  A test that sets neither variable runs, without a failed assertion, with
exactly the picked experiments: never a brittle one, and in ten out of eleven cases of the hash at
least one. -/
theorem test_exact (h : Nat) (hn : Str → Nat) (t : Str) (ht : t ≠ []) (c : Config)
    (hc : c ∈ table) :
    ∃ v, isActive h hn ⟨some t, none, none⟩ c.id = some v ∧ (v = true ↔ Picked table h hn c) := by
  obtain ⟨b, h1, hl, h2⟩ := select_test table_valid h hn t [] ht
  have hf : ∀ c ∈ table, c.forceDisable = false := by decide +kernel
  have := h2 c hc
  rw [hf c hc] at this
  have hsel : selected kNumExperiments table noBucket [] h hn ⟨some t, none, none⟩ = some b := h1
  unfold isActive
  rw [hsel, Option.bind_some]
  cases hb : b[c.id]? with
  | none =>
    exfalso
    rw [List.getElem?_eq_none_iff, hl] at hb
    have := table_valid.lt c hc
    omega
  | some v =>
    refine ⟨v, rfl, ?_⟩
    rw [hb] at this
    simpa using this

/-- A brittle experiment is not forced on a test. -/
theorem test_no_brittle (h : Nat) (hn : Str → Nat) (t : Str) (ht : t ≠ []) (c : Config)
    (hc : c ∈ table) (hb : c.brittle = true) :
    isActive h hn ⟨some t, none, none⟩ c.id = some false := by
  obtain ⟨v, h1, h2⟩ := test_exact h hn t ht c hc
  rw [h1]
  cases v with
  | false => rfl
  | true => rw [(h2.1 rfl).2.1] at hb; cases hb

/-- Unless the hash puts a test among the one in eleven without experiments, it has at least
one. -/
theorem test_some (h : Nat) (hn : Str → Nat) (t : Str) (ht : t ≠ []) (h11 : h % 11 ≠ 0) :
    ∃ c ∈ table, isActive h hn ⟨some t, none, none⟩ c.id = some true := by
  have hp : ∃ c ∈ table, Picked table h hn c := by
    by_cases hx : ∃ d ∈ table, d.brittle = false ∧ (h ^^^ hn d.name) % 3 = 0
    · obtain ⟨d, h1, h2, h3⟩ := hx
      exact ⟨d, h1, h11, h2, Or.inl h3⟩
    · have hlast : table = table.dropLast ++ table.getLast (by decide) :: [] :=
        (List.dropLast_concat_getLast (by decide)).symm
      refine ⟨table.getLast (by decide), List.getLast_mem _, h11, by decide +kernel,
        Or.inr ⟨fun d hd hb he => hx ⟨d, hd, hb, he⟩, _, _, hlast, by simp⟩⟩
  obtain ⟨c, hc, hpc⟩ := hp
  obtain ⟨v, h1, h2⟩ := test_exact h hn t ht c hc
  exact ⟨c, hc, by rw [h1, h2.2 hpc]⟩

/-- Looking an experiment up by name finds exactly the one with that name. -/
theorem find_exact (c : Config) (hc : c ∈ table) (name : Str) :
    lookup table name = some c.id ↔ name = c.name := lookup_iff table_valid hc name

/-- Walking the experiments names each one once, with its state. -/
theorem walk_exact (h : Nat) (hn : Str → Nat) (env : Env) :
    ((walk h hn env).map (·.1)).Nodup ∧ (walk h hn env).length = kNumExperiments ∧
    ∀ c ∈ table, (c.name, isActive h hn env c.id) ∈ walk h hn env := by
  refine ⟨?_, rfl, fun c hc => List.mem_map.2 ⟨c, hc, rfl⟩⟩
  have : (walk h hn env).map (·.1) = table.map (·.name) := by
    unfold walk
    rw [List.map_map]
    rfl
  rw [this]
  exact table_valid.names

/-! ### Concrete cases -/

/-- Two experiments are asked for, an unknown name is ignored, and one is ruled out again. -/
def env1 : Env :=
  ⟨none, some "TEST_ONLY_L3_AWARE,NO_SUCH,,TEST_ONLY_MM_VCPU".toList,
    some "TEST_ONLY_MM_VCPU,x".toList⟩

example : (walk 0 (fun _ => 0) env1).filterMap (fun x => if x.2 = some true then some x.1 else none)
    = ["TEST_ONLY_L3_AWARE".toList] := by decide +kernel

example : (walk 0 (fun _ => 0) ⟨none, some "enable-all-known-experiments".toList, none⟩).all
    (fun x => x.2 == some true) = true := by decide +kernel

/-- The keyword counts only on its own: in a list it is an unknown name. -/
example : (walk 0 (fun _ => 0)
    ⟨none, some "enable-all-known-experiments,TEST_ONLY_L3_AWARE".toList, none⟩).filterMap
      (fun x => if x.2 = some true then some x.1 else none)
    = ["TEST_ONLY_L3_AWARE".toList] := by decide +kernel

/-- A test whose hashes select nothing gets the last experiment. -/
example : (walk 1 (fun _ => 0) ⟨some "//a:b".toList, none, none⟩).filterMap
      (fun x => if x.2 = some true then some x.1 else none)
    = ["TEST_ONLY_TCMALLOC_SUBRELEASE_UNBACKED_PAGES".toList] := by decide +kernel

/-- If rollouts were in use (the shipped `CalculateRolloutBucket` never selects a host), the
assertion of experiment.cc:237 could fail: a test on a host in the rollout of the last experiment,
whose hashes select nothing. -/
theorem rollout_assertion :
    ∃ tbl bucket h hn, Valid 1 tbl ∧
      select 1 tbl bucket h hn "//a:b".toList [] [] true "host".toList = none :=
  ⟨[{ id := 0, name := "E".toList, upper := 1 }], fun _ _ => some 0, 1, fun _ => 0,
    ⟨by decide +kernel, by decide +kernel, by decide +kernel⟩, by decide +kernel⟩

end Verif.Experiments
