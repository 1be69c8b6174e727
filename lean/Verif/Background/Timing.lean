import Verif.Background.Spec
/-! C80: when the background thread does what. -/
namespace Verif.Background

def State.last (s : State) : Timed → Int
  | .drain => s.drain
  | .shuffle => s.shuffle
  | .resizeClasses => s.resizeClasses
  | .resizeMaxCapacity => s.resizeMaxCapacity
  | .resizeSlab => s.resizeSlab
  | .plunder => s.plunder
  | .resizeTransfer => s.resizeTransfer
  | .treat => s.treat

/-- `Timed.enabled` as a boolean. -/
def Timed.enabled' (t : Timed) (e : Env) : Bool :=
  match t with
  | .drain | .shuffle | .resizeClasses => e.perCpu
  | .resizeMaxCapacity => e.perCpu && e.maxCapacity
  | .resizeSlab => e.perCpu && e.dynamicSlab
  | .plunder | .resizeTransfer => !e.smallButSlow
  | .treat => true

theorem due_any (on : Bool) (now last period : Int) (a : Action) (f : Action → Bool) :
    (due on now last period a).2.any f = (decide (on = true ∧ now - last ≥ period) && f a) := by
  unfold due
  by_cases h : on = true ∧ now - last ≥ period
  · rw [if_pos h]; simp [h]
  · rw [if_neg h]; simp [h]

theorem due_last (on : Bool) (now last period : Int) (a : Action) :
    (due on now last period a).1 = if on = true ∧ now - last ≥ period then now else last := by
  unfold due
  split <;> rfl

/-- What a pass does to one of the clocks. -/
theorem pass_timed {conv : Rat → Option Int} {rnd : Rat → Rat} {e : Env} {s s' : State} {as : List Action}
    (h : pass conv rnd e s = .ok (s', as)) (t : Timed) :
    (t.ran (e, as) = true ↔ t.enabled e ∧ e.now - s.last t ≥ t.every * e.sleep) ∧
    s'.last t = (if t.ran (e, as) then e.now else s.last t) ∧ s'.prev = e.now := by
  unfold pass at h
  split at h
  · cases h
  · simp only at h
    split at h
    · cases h
    · rename_i bytes _
      simp only [Out.ok.injEq, Prod.mk.injEq] at h
      obtain ⟨h1, h2⟩ := h
      have hrl : ∀ f : Action → Bool, (∀ b, f (.release b) = false) →
          (if bytes > 0 ∨ e.region = true then [Action.release bytes] else []).any f = false := by
        intro f hf
        split <;> simp [hf]
      have hct : ∀ f : Action → Bool, f .clearTouched = false →
          (if e.perCpu = true then [Action.clearTouched] else []).any f = false := by
        intro f hf
        split <;> simp [hf]
      have hran : t.ran (e, as) = decide (t.enabled' e = true ∧ e.now - s.last t ≥ t.every * e.sleep) := by
        subst h2
        unfold Timed.ran
        simp only [List.any_append, due_any]
        rw [hrl _ (by intro b; cases t <;> rfl), hct _ (by cases t <;> rfl)]
        cases t <;> simp [Timed.isAct, Timed.enabled', Timed.every, State.last]
      have hen : t.enabled' e = true ↔ t.enabled e := by
        cases t <;> simp [Timed.enabled', Timed.enabled]
      refine ⟨by rw [hran, decide_eq_true_eq, hen], ?_, by rw [← h1]⟩
      rw [hran]
      subst h1
      cases t <;> simp [State.last, due_last, Timed.enabled', Timed.every]

theorem passes_timed {conv : Rat → Option Int} {rnd : Rat → Rat} {l : List Env} {s s' : State} {h : List (Env × List Action)}
    (hp : passes conv rnd l s = .ok (s', h)) (t : Timed) {h1 h2 : List (Env × List Action)} {p : Env × List Action}
    (hh : h = h1 ++ p :: h2) :
    t.ran p = true ↔ t.enabled p.1 ∧ p.1.now - lastRun t (s.last t) h1 ≥ t.every * p.1.sleep := by
  induction l generalizing s s' h h1 with
  | nil =>
    simp only [passes, Out.ok.injEq, Prod.mk.injEq] at hp
    rw [← hp.2] at hh
    cases h1 <;> cases hh
  | cons e l ih =>
    rw [passes] at hp
    split at hp
    · cases hp
    · cases hp
    · rename_i s1 as hs
      split at hp
      · cases hp
      · cases hp
      · rename_i s2 h' hl
        simp only [Out.ok.injEq, Prod.mk.injEq] at hp
        rw [← hp.2] at hh
        obtain ⟨z1, z2, _⟩ := pass_timed hs t
        cases h1 with
        | nil =>
          simp only [List.nil_append, List.cons.injEq] at hh
          rw [← hh.1]
          exact z1
        | cons q h1 =>
          simp only [List.cons_append, List.cons.injEq] at hh
          have := ih hl hh.2
          rw [this, z2]
          rw [← hh.1]
          rfl

/-- C80: a periodic action runs in a pass just when it is enabled and its period has passed since the last pass that ran it (or
since the thread was started). -/
theorem runs_iff {conv : Rat → Option Int} {rnd : Rat → Rat} {start : Int} {l : List Env} {h h1 h2 : List (Env × List Action)}
    {p : Env × List Action} (hb : background conv rnd start l = .ok h) (hh : h = h1 ++ p :: h2) (t : Timed) :
    t.ran p = true ↔ t.enabled p.1 ∧ p.1.now - lastRun t start h1 ≥ t.every * p.1.sleep := by
  unfold background at hb
  split at hb
  · cases hb
  · cases hb
  · rename_i s' h' hp
    cases hb
    have := passes_timed hp t hh
    cases t <;> exact this

/-- C80: a clock that was set back to before the last run of an action stops that action until it has caught up. -/
theorem clock_back_stalls {conv : Rat → Option Int} {rnd : Rat → Rat} {start : Int} {l : List Env}
    {h h1 h2 : List (Env × List Action)} {p : Env × List Action} (hb : background conv rnd start l = .ok h)
    (hh : h = h1 ++ p :: h2) (t : Timed) (hs : 0 ≤ p.1.sleep) (hback : p.1.now < lastRun t start h1) : t.ran p = false := by
  cases hr : t.ran p with
  | false => rfl
  | true =>
    have h1 := ((runs_iff hb hh t).1 hr).2
    have h2 : 0 ≤ t.every := by cases t <;> decide
    have := Int.mul_nonneg h2 hs
    omega

theorem passes_mem {conv : Rat → Option Int} {rnd : Rat → Rat} {l : List Env} {s s' : State} {h : List (Env × List Action)}
    (hp : passes conv rnd l s = .ok (s', h)) {h1 h2 : List (Env × List Action)} {p : Env × List Action}
    (hh : h = h1 ++ p :: h2) :
    ∃ s1 s2, s1.prev = lastPass s.prev h1 ∧ pass conv rnd p.1 s1 = .ok (s2, p.2) := by
  induction l generalizing s s' h h1 with
  | nil =>
    simp only [passes, Out.ok.injEq, Prod.mk.injEq] at hp
    rw [← hp.2] at hh
    cases h1 <;> cases hh
  | cons e l ih =>
    rw [passes] at hp
    split at hp
    · cases hp
    · cases hp
    · rename_i s1 as hs
      split at hp
      · cases hp
      · cases hp
      · rename_i s2 h' hl
        simp only [Out.ok.injEq, Prod.mk.injEq] at hp
        rw [← hp.2] at hh
        cases h1 with
        | nil =>
          simp only [List.nil_append, List.cons.injEq] at hh
          rw [← hh.1]
          exact ⟨s, s1, rfl, hs⟩
        | cons q h1 =>
          simp only [List.cons_append, List.cons.injEq] at hh
          obtain ⟨a, b, z1, z2⟩ := ih hl hh.2
          refine ⟨a, b, ?_, z2⟩
          rw [z1, (pass_timed hs .drain).2.2, ← hh.1]
          rfl

theorem background_mem {conv : Rat → Option Int} {rnd : Rat → Rat} {start : Int} {l : List Env} {h h1 h2 : List (Env × List Action)}
    {p : Env × List Action} (hb : background conv rnd start l = .ok h) (hh : h = h1 ++ p :: h2) :
    ∃ s1 s2, s1.prev = lastPass start h1 ∧ pass conv rnd p.1 s1 = .ok (s2, p.2) := by
  unfold background at hb
  split at hb
  · cases hb
  · cases hb
  · rename_i s' h' hp
    cases hb
    exact passes_mem hp hh

theorem due_rank (on : Bool) (now last period : Int) (a : Action) :
    (due on now last period a).2 = [] ∨ (due on now last period a).2 = [a] := by
  unfold due
  split
  · right; rfl
  · left; rfl

/-- C80: the actions of a pass follow the order of the caches, each at most once, and every pass clears the set of CPUs in use
(if there are caches per CPU) and takes back idle objects of the sharded caches. -/
theorem pass_order {conv : Rat → Option Int} {rnd : Rat → Rat} {e : Env} {s s' : State} {as : List Action}
    (h : pass conv rnd e s = .ok (s', as)) :
    (as.map rank).Pairwise (· < ·) ∧ .plunderSharded ∈ as ∧ (.clearTouched ∈ as ↔ e.perCpu = true) ∧
    (∀ c, .treat c ∈ as → c = e.collapse) := by
  unfold pass at h
  split at h
  · cases h
  · simp only at h
    split at h
    · cases h
    · rename_i bytes _
      simp only [Out.ok.injEq, Prod.mk.injEq] at h
      obtain ⟨_, h2⟩ := h
      generalize hd : (due e.perCpu e.now s.drain (30 * e.sleep) .drain).2 = l1 at h2
      generalize hd2 : (due e.perCpu e.now s.shuffle (5 * e.sleep) .shuffle).2 = l2 at h2
      generalize hd3 : (due e.perCpu e.now s.resizeClasses (2 * e.sleep) .resizeClasses).2 = l3 at h2
      generalize hd4 : (due (e.perCpu && e.maxCapacity) e.now s.resizeMaxCapacity (29 * e.sleep) .resizeMaxCapacity).2 = l4 at h2
      generalize hd5 : (due (e.perCpu && e.dynamicSlab) e.now s.resizeSlab (29 * e.sleep) .resizeSlab).2 = l5 at h2
      generalize hd7 : (due (!e.smallButSlow) e.now s.plunder (5 * e.sleep) .plunder).2 = l7 at h2
      generalize hd8 : (due (!e.smallButSlow) e.now s.resizeTransfer (2 * e.sleep) .resizeTransfer).2 = l8 at h2
      generalize hd9 : (due true e.now s.treat (5 * e.sleep) (.treat e.collapse)).2 = l9 at h2
      have c1 := due_rank e.perCpu e.now s.drain (30 * e.sleep) .drain
      have c2 := due_rank e.perCpu e.now s.shuffle (5 * e.sleep) .shuffle
      have c3 := due_rank e.perCpu e.now s.resizeClasses (2 * e.sleep) .resizeClasses
      have c4 := due_rank (e.perCpu && e.maxCapacity) e.now s.resizeMaxCapacity (29 * e.sleep) .resizeMaxCapacity
      have c5 := due_rank (e.perCpu && e.dynamicSlab) e.now s.resizeSlab (29 * e.sleep) .resizeSlab
      have c7 := due_rank (!e.smallButSlow) e.now s.plunder (5 * e.sleep) .plunder
      have c8 := due_rank (!e.smallButSlow) e.now s.resizeTransfer (2 * e.sleep) .resizeTransfer
      have c9 := due_rank true e.now s.treat (5 * e.sleep) (.treat e.collapse)
      rw [hd] at c1
      rw [hd2] at c2
      rw [hd3] at c3
      rw [hd4] at c4
      rw [hd5] at c5
      rw [hd7] at c7
      rw [hd8] at c8
      rw [hd9] at c9
      have c10 : (if bytes > 0 ∨ e.region = true then [Action.release bytes] else []) = [] ∨
          (if bytes > 0 ∨ e.region = true then [Action.release bytes] else []) = [.release bytes] := by
        split
        · right; rfl
        · left; rfl
      generalize (if bytes > 0 ∨ e.region = true then [Action.release bytes] else []) = l10 at h2 c10
      have c6 : (if e.perCpu = true then [Action.clearTouched] else []) =
          if e.perCpu = true then [Action.clearTouched] else [] := rfl
      clear hd hd2 hd3 hd4 hd5 hd7 hd8 hd9
      -- each list holds only actions of its rank
      have key : ∀ {l : List Action} {a : Action}, l = [] ∨ l = [a] → l.Sublist [a] := by
        rintro l a (h | h) <;> rw [h]
        · exact List.nil_sublist _
        · exact List.Sublist.refl _
      have k6 : (if e.perCpu = true then [Action.clearTouched] else []).Sublist [.clearTouched] := by
        split
        · exact List.Sublist.refl _
        · exact List.nil_sublist _
      have hsub : as.Sublist [.drain, .shuffle, .resizeClasses, .resizeMaxCapacity, .resizeSlab, .clearTouched, .plunderSharded,
          .plunder, .resizeTransfer, .treat e.collapse, .release bytes] := by
        rw [← h2]
        exact (((((((((((key c1).append (key c2)).append (key c3)).append (key c4)).append (key c5)).append k6).append
          (List.Sublist.refl _)).append (key c7)).append (key c8)).append (key c9)).append (key c10))
      refine ⟨?_, ?_, ?_, ?_⟩
      · refine List.Pairwise.sublist (hsub.map rank) ?_
        show ([0, 1, 2, 3, 4, 5, 6, 7, 8, 9, 10] : List Nat).Pairwise (· < ·)
        decide
      · rw [← h2]; simp
      · rw [← h2]
        have no : ∀ {l : List Action} {a : Action}, l = [] ∨ l = [a] → a ≠ .clearTouched → .clearTouched ∉ l := by
          rintro l a (h | h) ha hm
          · rw [h] at hm; cases hm
          · rw [h, List.mem_singleton] at hm; exact ha hm.symm
        simp only [List.mem_append, no c1 (by simp), no c2 (by simp), no c3 (by simp), no c4 (by simp), no c5 (by simp),
          no c7 (by simp), no c8 (by simp), no c9 (by simp), no c10 (by simp), or_false, false_or]
        by_cases hp : e.perCpu = true <;> simp [hp]
      · intro c hc
        have := hsub.subset hc
        simpa using this

end Verif.Background
