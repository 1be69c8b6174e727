import Verif.Sampling.Lemmas
/-
The list of running allocation profiles.
-/
namespace Verif.Sampling

/-- Every stop so far gave what it should. -/
def StopsOk : List Ev → Prop
  | [] => True
  | .stopped t out :: l =>
    (wasStarted t l ∧ out = if isRunning t l then some (collected t l) else none) ∧ StopsOk l
  | _ :: l => StopsOk l

structure Prof (σ : State) : Prop where
  nodup : (σ.first.map Node.tok).Nodup
  nodes : ∀ n ∈ σ.first, n.table = collected n.tok σ.trace
  inList : ∀ t, t ∈ σ.first.map Node.tok ↔ σ.toks t = .running
  run : ∀ t, isRunning t σ.trace = true ↔ σ.toks t = .running
  absent : ∀ t, σ.toks t = .absent → collected t σ.trace = []
  started : ∀ t, σ.toks t ≠ .absent → wasStarted t σ.trace
  stops : StopsOk σ.trace

theorem remove_some : ∀ {l : List Node} {t : Nat}, t ∈ l.map Node.tok →
    ∃ l', remove l t = some l'
  | [], t, h => by cases h
  | n :: l, t, h => by
    unfold remove
    by_cases hn : n.tok = t
    · exact ⟨l, if_pos hn⟩
    · rw [if_neg hn]
      have : t ∈ l.map Node.tok := by
        rcases List.mem_cons.1 h with h | h
        · exact absurd h.symm hn
        · exact h
      obtain ⟨l', hl'⟩ := remove_some this
      exact ⟨n :: l', by rw [hl']; rfl⟩

theorem remove_spec : ∀ {l l' : List Node} {t : Nat}, (l.map Node.tok).Nodup →
    remove l t = some l' →
    (l'.map Node.tok).Nodup ∧ ∀ n, n ∈ l' ↔ n ∈ l ∧ n.tok ≠ t
  | [], l', t, _, h => by cases h
  | m :: l, l', t, hd, h => by
    rw [List.map_cons, List.nodup_cons] at hd
    unfold remove at h
    by_cases hm : m.tok = t
    · rw [if_pos hm, Option.some.injEq] at h
      subst h
      refine ⟨hd.2, fun n => ?_⟩
      constructor
      · intro hn
        refine ⟨List.mem_cons_of_mem _ hn, fun ht => hd.1 ?_⟩
        rw [hm, ← ht]
        exact List.mem_map_of_mem hn
      · rintro ⟨hn, ht⟩
        rcases List.mem_cons.1 hn with rfl | hn
        · exact absurd hm ht
        · exact hn
    · rw [if_neg hm] at h
      cases hr : remove l t with
      | none => rw [hr] at h; cases h
      | some k =>
        rw [hr, Option.map_some, Option.some.injEq] at h
        subst h
        obtain ⟨h1, h2⟩ := remove_spec hd.2 hr
        refine ⟨?_, fun n => ?_⟩
        · rw [List.map_cons, List.nodup_cons]
          refine ⟨fun hmem => hd.1 ?_, h1⟩
          obtain ⟨n, hn, he⟩ := List.mem_map.1 hmem
          rw [← he]
          exact List.mem_map_of_mem ((h2 n).1 hn).1
        · rw [List.mem_cons, List.mem_cons, h2]
          constructor
          · rintro (rfl | ⟨a, b⟩)
            · exact ⟨.inl rfl, hm⟩
            · exact ⟨.inr a, b⟩
          · rintro ⟨rfl | a, b⟩
            · exact .inl rfl
            · exact .inr ⟨a, b⟩

theorem tableOf_spec {l : List Node} {t : Nat} (h : t ∈ l.map Node.tok) :
    ∃ n ∈ l, n.tok = t ∧ tableOf l t = n.table := by
  unfold tableOf
  cases hf : l.find? (fun n => n.tok = t) with
  | none =>
    rw [List.find?_eq_none] at hf
    obtain ⟨n, hn, he⟩ := List.mem_map.1 h
    exact absurd he (by simpa using hf n hn)
  | some n =>
    have h1 := List.find?_some hf
    exact ⟨n, List.mem_of_find?_eq_some hf, by simpa using h1, rfl⟩

/-- Nothing changes for profiles. -/
theorem prof_other {σ τ : State} (inv : Prof σ) (h1 : τ.first = σ.first) (h2 : τ.toks = σ.toks)
    (h3 : τ.trace = σ.trace) : Prof τ :=
  ⟨by rw [h1]; exact inv.nodup, by rw [h1, h3]; exact inv.nodes, by rw [h1, h2]; exact inv.inList,
   by rw [h2, h3]; exact inv.run, by rw [h2, h3]; exact inv.absent,
   by rw [h2, h3]; exact inv.started, by rw [h3]; exact inv.stops⟩

theorem prof_goStep {A : Arith} {σ τ : State} {i : Nat} {pc : Pc} (inv : Prof σ)
    (hs : goStep A σ i pc = .ok τ) : Prof τ := by
  cases pc with
  | fragged s =>
    simp only [goStep, Out.ok.injEq] at hs
    subst hs
    have hm : (report σ.first s).map Node.tok = σ.first.map Node.tok := by
      unfold report
      rw [List.map_map]
      rfl
    refine ⟨?_, ?_, ?_, inv.run, ?_, ?_, inv.stops⟩
    · show ((report σ.first s).map Node.tok).Nodup
      rw [hm]; exact inv.nodup
    · intro n hn
      obtain ⟨m, hm1, hm2⟩ := List.mem_map.1 hn
      have hrun : isRunning m.tok σ.trace = true :=
        (inv.run _).2 ((inv.inList _).1 (List.mem_map_of_mem hm1))
      subst hm2
      simp only [collected, hrun, if_true]
      rw [inv.nodes m hm1]
    · intro t
      show t ∈ (report σ.first s).map Node.tok ↔ _
      rw [hm]; exact inv.inList t
    · intro t ht
      have hnr : ¬ isRunning t σ.trace = true := by
        rw [inv.run, ht]
        exact fun h => by cases h
      simp only [collected]
      rw [if_neg hnr]
      exact inv.absent t ht
    · intro t ht
      exact List.mem_cons_of_mem _ (inv.started t ht)
  | took s | reported s | registered s | locked s | readSize s v | unsampled s =>
    simp only [goStep, Out.ok.injEq] at hs
    subst hs
    exact prof_other inv rfl rfl rfl
  | sampled s | peakRead s p | wantLock s | holding s =>
    simp only [goStep] at hs
    split at hs
    · first
        | cases hs; done
        | (simp only [Out.ok.injEq] at hs; subst hs; exact prof_other inv rfl rfl rfl)
    · simp only [Out.ok.injEq] at hs
      subst hs
      exact prof_other inv rfl rfl rfl
  | saving s => cases hs
  | done => cases hs
  | unregistered s =>
    simp only [goStep] at hs
    split at hs
    · split at hs
      · cases hs
      · simp only [Out.ok.injEq] at hs
        subst hs
        exact prof_other inv rfl rfl rfl
    · simp only [Out.ok.injEq] at hs
      subst hs
      exact prof_other inv rfl rfl rfl

theorem setTok_same (f : Nat → Tok) (t : Nat) (v : Tok) : setTok f t v t = v := if_pos rfl
theorem setTok_ne (f : Nat → Tok) {t u : Nat} (v : Tok) (h : u ≠ t) : setTok f t v u = f u :=
  if_neg h

theorem prof_init : Prof init := by
  constructor <;> simp [init, isRunning, collected, StopsOk]

/-- A running profile leaves the list. -/
theorem prof_remove {σ τ : State} {t : Nat} {l : List Node} {v : Tok} {ev : Ev} (inv : Prof σ)
    (ht : σ.toks t = .running) (hr : remove σ.first t = some l) (hv : v ≠ .running)
    (hva : v ≠ .absent)
    (hev : ev = .dropped t ∨ ev = .stopped t (some (tableOf σ.first t)))
    (h1 : τ.first = l) (h2 : τ.toks = setTok σ.toks t v) (h3 : τ.trace = ev :: σ.trace) :
    Prof τ := by
  obtain ⟨hd, hmem⟩ := remove_spec inv.nodup hr
  have hcol : ∀ u, collected u (ev :: σ.trace) = collected u σ.trace := by
    intro u
    rcases hev with h | h <;> rw [h] <;> rfl
  have hrun : ∀ u, isRunning u (ev :: σ.trace) = (t != u && isRunning u σ.trace) := by
    intro u
    rcases hev with h | h <;> rw [h] <;> rfl
  refine ⟨by rw [h1]; exact hd, ?_, ?_, ?_, ?_, ?_, ?_⟩
  · intro n hn
    rw [h1] at hn
    rw [h3, hcol]
    exact inv.nodes n ((hmem n).1 hn).1
  · intro u
    rw [h1, h2]
    by_cases hu : u = t
    · subst hu
      rw [setTok_same]
      constructor
      · intro h
        obtain ⟨n, hn, he⟩ := List.mem_map.1 h
        exact absurd he ((hmem n).1 hn).2
      · intro h; exact absurd h hv
    · rw [setTok_ne _ _ hu, ← inv.inList u]
      constructor
      · intro h
        obtain ⟨n, hn, he⟩ := List.mem_map.1 h
        exact List.mem_map.2 ⟨n, ((hmem n).1 hn).1, he⟩
      · intro h
        obtain ⟨n, hn, he⟩ := List.mem_map.1 h
        exact List.mem_map.2 ⟨n, (hmem n).2 ⟨hn, by omega⟩, he⟩
  · intro u
    rw [h3, h2, hrun]
    by_cases hu : u = t
    · subst hu
      rw [setTok_same]
      simp [hv]
    · have : (t != u) = true := by simpa using fun h : t = u => hu h.symm
      rw [setTok_ne _ _ hu, this, Bool.true_and]
      exact inv.run u
  · intro u
    rw [h2, h3, hcol]
    by_cases hu : u = t
    · subst hu
      rw [setTok_same]
      intro h; exact absurd h hva
    · rw [setTok_ne _ _ hu]
      exact inv.absent u
  · intro u
    rw [h2, h3]
    by_cases hu : u = t
    · subst hu
      intro _
      exact List.mem_cons_of_mem _ (inv.started u (by rw [ht]; exact fun h => by cases h))
    · rw [setTok_ne _ _ hu]
      intro h
      exact List.mem_cons_of_mem _ (inv.started u h)
  · rw [h3]
    rcases hev with h | h <;> rw [h]
    · exact inv.stops
    · refine ⟨⟨inv.started t (by rw [ht]; exact fun h => by cases h), ?_⟩, inv.stops⟩
      rw [if_pos ((inv.run t).2 ht)]
      obtain ⟨n, hn, he, htab⟩ := tableOf_spec ((inv.inList t).2 ht)
      rw [htab, inv.nodes n hn, he]

theorem prof_step {A : Arith} {σ τ : State} {c : Cmd} (inv : Prof σ) (hs : step A σ c = .ok τ) :
    Prof τ := by
  cases c with
  | malloc w r a =>
    simp only [step] at hs
    split at hs
    · simp only [Out.ok.injEq] at hs
      subst hs
      exact prof_other inv rfl rfl rfl
    · cases hs
  | free s =>
    simp only [step] at hs
    split at hs
    · simp only [Out.ok.injEq] at hs
      subst hs
      exact prof_other inv rfl rfl rfl
    · cases hs
  | go i =>
    simp only [step] at hs
    cases hpc : σ.calls[i]? with
    | none => rw [hpc] at hs; cases hs
    | some pc => rw [hpc] at hs; exact prof_goStep inv hs
  | save i copied =>
    simp only [step] at hs
    split at hs
    · split at hs
      · simp only [Out.ok.injEq] at hs
        subst hs
        exact prof_other inv rfl rfl rfl
      · cases hs
    · cases hs
  | start tok =>
    simp only [step] at hs
    split at hs
    · rename_i hab
      simp only [Out.ok.injEq] at hs
      subst hs
      have hnotin : tok ∉ σ.first.map Node.tok := by
        rw [inv.inList, hab]
        exact fun h => by cases h
      refine ⟨?_, ?_, ?_, ?_, ?_, ?_, inv.stops⟩
      · show (tok :: σ.first.map Node.tok).Nodup
        exact List.nodup_cons.2 ⟨hnotin, inv.nodup⟩
      · intro n hn
        show n.table = collected n.tok σ.trace
        rcases List.mem_cons.1 hn with rfl | hn
        · exact (inv.absent tok hab).symm
        · exact inv.nodes n hn
      · intro t
        show t ∈ tok :: σ.first.map Node.tok ↔ setTok σ.toks tok .running t = .running
        by_cases ht : t = tok
        · subst ht; rw [setTok_same]; simp
        · rw [setTok_ne _ _ ht, List.mem_cons, ← inv.inList]
          exact ⟨fun h => h.resolve_left ht, .inr⟩
      · intro t
        show (tok == t || isRunning t σ.trace) = true ↔ setTok σ.toks tok .running t = .running
        by_cases ht : t = tok
        · subst ht; rw [setTok_same]; simp
        · have : (tok == t) = false := by simpa using fun h : tok = t => ht h.symm
          rw [setTok_ne _ _ ht, this, Bool.false_or]
          exact inv.run t
      · intro t
        show setTok σ.toks tok .running t = .absent → collected t σ.trace = []
        by_cases ht : t = tok
        · subst ht; rw [setTok_same]; exact fun h => by cases h
        · rw [setTok_ne _ _ ht]; exact inv.absent t
      · intro t
        show setTok σ.toks tok .running t ≠ .absent → wasStarted t (_ :: σ.trace)
        by_cases ht : t = tok
        · subst ht; intro _; exact List.mem_cons_self
        · rw [setTok_ne _ _ ht]
          intro h
          exact List.mem_cons_of_mem _ (inv.started t h)
    · cases hs
  | stop tok =>
    simp only [step] at hs
    split at hs
    · rename_i ht
      split at hs
      · cases hs
      · rename_i l hr
        simp only [Out.ok.injEq] at hs
        subst hs
        exact prof_remove inv ht hr (v := .stopped) (by decide) (by decide) (.inr rfl) rfl rfl rfl
    · rename_i ht
      simp only [Out.ok.injEq] at hs
      subst hs
      have hnr : isRunning tok σ.trace = false := by
        cases h : isRunning tok σ.trace with
        | false => rfl
        | true => rw [inv.run, ht] at h; cases h
      refine ⟨inv.nodup, inv.nodes, inv.inList, ?_, inv.absent, ?_, ?_⟩
      · intro t
        show (tok != t && isRunning t σ.trace) = true ↔ σ.toks t = .running
        by_cases h : tok = t
        · subst h; simp [ht]
        · have : (tok != t) = true := by simpa using h
          rw [this, Bool.true_and]; exact inv.run t
      · intro t h
        exact List.mem_cons_of_mem _ (inv.started t h)
      · refine ⟨⟨inv.started tok (by rw [ht]; exact fun h => by cases h), ?_⟩, inv.stops⟩
        rw [hnr]; rfl
    · cases hs
  | drop tok =>
    simp only [step] at hs
    split at hs
    · rename_i ht
      split at hs
      · cases hs
      · rename_i l hr
        simp only [Out.ok.injEq] at hs
        subst hs
        exact prof_remove inv ht hr (v := .gone) (by decide) (by decide) (.inl rfl) rfl rfl rfl
    · rename_i ht
      simp only [Out.ok.injEq] at hs
      subst hs
      refine ⟨inv.nodup, inv.nodes, ?_, ?_, ?_, ?_, inv.stops⟩
      · intro t
        show t ∈ σ.first.map Node.tok ↔ setTok σ.toks tok .gone t = .running
        by_cases h : t = tok
        · subst h; rw [setTok_same, inv.inList, ht]; decide
        · rw [setTok_ne _ _ h]; exact inv.inList t
      · intro t
        show (tok != t && isRunning t σ.trace) = true ↔ setTok σ.toks tok .gone t = .running
        by_cases h : t = tok
        · subst h; rw [setTok_same]; simp
        · have : (tok != t) = true := by simpa using fun e : tok = t => h e.symm
          rw [setTok_ne _ _ h, this, Bool.true_and]; exact inv.run t
      · intro t
        show setTok σ.toks tok .gone t = .absent → collected t σ.trace = []
        by_cases h : t = tok
        · subst h; rw [setTok_same]; exact fun h => by cases h
        · rw [setTok_ne _ _ h]; exact inv.absent t
      · intro t
        show setTok σ.toks tok .gone t ≠ .absent → wasStarted t (_ :: σ.trace)
        by_cases h : t = tok
        · subst h
          intro _
          exact List.mem_cons_of_mem _ (inv.started t (by rw [ht]; exact fun h => by cases h))
        · rw [setTok_ne _ _ h]
          intro h'
          exact List.mem_cons_of_mem _ (inv.started t h')
    · cases hs
  | dump =>
    simp only [step] at hs
    split at hs
    · cases hs
    · simp only [Out.ok.injEq] at hs
      subst hs
      exact ⟨inv.nodup, inv.nodes, inv.inList, inv.run, inv.absent,
        fun t h => List.mem_cons_of_mem _ (inv.started t h), inv.stops⟩

theorem reach_prof {A : Arith} {σ : State} (h : Reach A σ) : Prof σ := by
  induction h with
  | init => exact prof_init
  | step _ hs ih => exact prof_step ih hs

theorem stops_at : ∀ {newer older : List Ev} {t : Nat} {out : Option (List Sample)},
    StopsOk (newer ++ .stopped t out :: older) →
    wasStarted t older ∧ out = if isRunning t older then some (collected t older) else none
  | [], _, _, _, h => h.1
  | e :: newer, older, t, out, h => by
    have : StopsOk (newer ++ .stopped t out :: older) := by
      cases e with
      | stopped u o => exact h.2
      | sampled s => exact h
      | started u => exact h
      | dropped u => exact h
      | dumped l => exact h
    exact stops_at this

end Verif.Sampling
