import Verif.Recorder.Held
/-! C57: heap profiles. -/
namespace Verif.Recorder

variable {tr : Trace} {s s' : St} {t p d : Nat}

/-- Samples registered at the same time are distinct. -/
theorem live_distinct (h : Run tr s) : ((live tr).map (·.1)).Nodup := by
  obtain ⟨L, D, F⟩ := h.full
  exact F.inv.trc.nd

/-- What `Register` returns is not registered. -/
theorem register_fresh {e : Ev} (h : Run (tr ++ [(e, .registered t p d)]) s) : ∀ d', (p, d') ∉ live tr := by
  have := live_distinct h
  rw [live_snoc] at this
  have := (List.nodup_cons.1 this).1
  exact fun d' hh => this (List.mem_map.2 ⟨_, hh, rfl⟩)

/-- `Register` takes memory for a sample only when every sample it has ever made is registered, or is in the hands of another call of
`Register` that is under way. -/
theorem register_reuses (h : Run tr s) (hs : step s (.register t d) = some (s', .none)) :
    ∀ p ∈ made tr, (∃ d', (p, d') ∈ live tr) ∨ ∃ u, Pending tr u p := by
  obtain ⟨L, D, F⟩ := h.full
  have hG : s.dead G = G := by
    simp only [step] at hs
    split at hs
    · split at hs
      · assumption
      · cases hs
    · cases hs
  have hD : D = [] := by
    cases D with
    | nil => rfl
    | cons a D =>
      have := F.inv.core.chD
      exact absurd (this.1.symm.trans hG) this.2.1
  intro p hp
  rcases F.held.all p ((F.inv.trc.used p).2 hp) with hL | ⟨u, hu⟩
  · exact Or.inl ⟨s.data p, (F.inv.trc.live p _).2 ⟨hL, by rw [hD]; exact List.not_mem_nil, rfl⟩⟩
  · exact Or.inr ⟨u, F.held.pend u p hu⟩

/-- A profile, taken while other threads register and unregister: no sample twice; every sample registered when `Iterate` was called and not
unregistered before it returned, with what was registered; nothing that was not registered, with that content, at some moment between. -/
theorem iterate_exact {l : List (Nat × Nat)} (h : Run (tr ++ [(.visit t, .profile t l)]) s) : ∃ tr0 tr1, Since (.iterate t) tr tr0 tr1 ∧
    (l.map (·.1)).Nodup ∧ (∀ p d, (p, d) ∈ live tr0 → (∀ x ∈ tr1, x.2.isBuried p = false) → (p, d) ∈ l) ∧
    ∀ x ∈ l, ∃ k, k ≤ tr1.length ∧ x ∈ live (tr0 ++ tr1.take k) := by
  generalize hw : tr ++ [(Ev.visit t, Out.profile t l)] = w at h
  cases h with
  | init => simp at hw
  | @step tr' s1 s2 e o h hp hs =>
    obtain ⟨rfl, hx⟩ := List.append_inj' hw rfl
    cases hx
    obtain ⟨L, D, F⟩ := h.full
    simp only [step] at hs
    split at hs
    · rename_i p0 out ht
      split at hs
      · rename_i hp0
        cases hs
        obtain ⟨tr0, tr1, N, V, R, i1, i2, i3, i4⟩ := F.inv.it t p0 l ht
        have hR : R = [] := by
          cases R with
          | nil => rfl
          | cons a R => exact absurd hp0 (i3.1 ▸ i3.2.1)
        subst hR
        refine ⟨tr0, tr1, i1, ?_, fun p d hl hb => ?_, i4.sound⟩
        · have := F.inv.core.ndL
          rw [i2] at this
          rw [List.append_nil] at this
          exact List.Nodup.sublist i4.ids (List.nodup_append.1 this).2.1
        · obtain ⟨c1, c2⟩ := i4.compl p d hl
          rw [List.append_nil] at c1
          exact c2 hb c1
      · split at hs <;> cases hs
    · cases hs

/-- `UnregisterAll` unregisters all: what is registered when it returns was registered while it ran. -/
theorem unregisterAll_exact (h : Run (tr ++ [(.sweep t, .cleared t)]) s) : ∃ tr0 tr1, Since (.clear t) tr tr0 tr1 ∧
    ∀ p d, (p, d) ∈ live tr → ∃ e u, (e, .registered u p d) ∈ tr1 := by
  generalize hw : tr ++ [(Ev.sweep t, Out.cleared t)] = w at h
  cases h with
  | init => simp at hw
  | @step tr' s1 s2 e o h hp hs =>
    obtain ⟨rfl, hx⟩ := List.append_inj' hw rfl
    cases hx
    obtain ⟨L, D, F⟩ := h.full
    simp only [step] at hs
    split at hs
    · rename_i p0 out ht
      split at hs
      · rename_i hp0
        cases hs
        obtain ⟨tr0, tr1, N, V, R, i1, i2, i3, i4, i5⟩ := F.inv.sw t p0 _ ht
        have hR : R = [] := by
          cases R with
          | nil => rfl
          | cons a R => exact absurd hp0 (i3.1 ▸ i3.2.1)
        subst hR
        refine ⟨tr0, tr1, i1, fun p d hl => ?_⟩
        obtain ⟨h1, h2, h3⟩ := (F.inv.trc.live p d).1 hl
        rw [i2, List.append_nil] at h1
        rcases List.mem_append.1 h1 with h1 | h1
        · rw [← h3]; exact i5 p h1
        · exact absurd (i4 p h1) h2
      · split at hs <;> cases hs
    · cases hs

/-- Every sample that was registered when `UnregisterAll` was called is unregistered before it returns. -/
theorem unregisterAll_all (h : Run (tr ++ [(.sweep t, .cleared t)]) s) : ∃ tr0 tr1, Since (.clear t) tr tr0 tr1 ∧
    ∀ p d, (p, d) ∈ live tr0 → ∃ x ∈ tr1, x.2.isBuried p = true := by
  obtain ⟨tr0, tr1, i1, hreg⟩ := unregisterAll_exact h
  refine ⟨tr0, tr1, i1, fun p d hl => ?_⟩
  apply Classical.byContradiction
  intro hno
  have hno : ∀ x ∈ tr1, x.2.isBuried p = false := fun x hx => by
    cases hh : x.2.isBuried p with
    | false => rfl
    | true => exact absurd ⟨x, hx, hh⟩ hno
  obtain ⟨e, u, hm⟩ := hreg p d (by rw [i1.1]; exact live_stay hl hno)
  obtain ⟨a, b, hab⟩ := List.append_of_mem hm
  rw [i1.1, hab] at h
  have h' : Run ((tr0 ++ a) ++ [(e, .registered u p d)] ++ (b ++ [(.sweep t, .cleared t)])) s := by
    simpa [List.append_assoc] using h
  obtain ⟨s0, h0⟩ := h'.prefix
  refine register_fresh h0 d (live_stay hl fun x hx => hno x ?_)
  rw [hab]; exact List.mem_append_left _ hx

theorem live_quiet (tr0 : Trace) : ∀ tr1 : Trace, (∀ x ∈ tr1, ∀ l, liveStep l x.2 = l) → live (tr0 ++ tr1) = live tr0
  | [], _ => by rw [List.append_nil]
  | x :: tr1, h => by
    have h1 : tr0 ++ x :: tr1 = (tr0 ++ [x]) ++ tr1 := by rw [List.append_assoc]; rfl
    rw [h1, live_quiet _ tr1 fun y hy => h y (List.mem_cons_of_mem _ hy), live_snoc, h x (List.mem_cons_self ..)]

theorem nodup_of_map {α β : Type} (f : α → β) : ∀ {l : List α}, (l.map f).Nodup → l.Nodup
  | [], _ => List.nodup_nil
  | a :: l, h => by
    obtain ⟨h1, h2⟩ := List.nodup_cons.1 h
    exact List.nodup_cons.2 ⟨fun hh => h1 (List.mem_map.2 ⟨a, hh, rfl⟩), nodup_of_map f h2⟩

/-- A profile taken while nothing is registered or unregistered is exactly what is registered. -/
theorem iterate_quiet {l : List (Nat × Nat)} (h : Run (tr ++ [(.visit t, .profile t l)]) s) : ∃ tr0 tr1, Since (.iterate t) tr tr0 tr1 ∧
    ((∀ x ∈ tr1, ∀ l, liveStep l x.2 = l) → l.Perm (live tr0)) := by
  obtain ⟨tr0, tr1, i1, i2, i3, i4⟩ := iterate_exact h
  refine ⟨tr0, tr1, i1, fun hq => ?_⟩
  obtain ⟨s0, h0⟩ := Run.prefix (by rw [i1.1, List.append_assoc] at h; exact h)
  refine (List.perm_ext_iff_of_nodup (nodup_of_map _ i2) (nodup_of_map _ (live_distinct h0))).2 fun ⟨p, d⟩ => ⟨fun hx => ?_, fun hx => i3 p d hx fun x hxm => ?_⟩
  · obtain ⟨k, -, hk⟩ := i4 _ hx
    rw [live_quiet _ _ fun y hy => hq y (List.mem_of_mem_take hy)] at hk
    exact hk
  · have := hq x hxm [(p, 0)]
    cases hb : x.2 with
    | buried u q o =>
      rw [hb] at this
      show (q == p) = false
      cases hqp : q == p with
      | false => rfl
      | true =>
        rw [beq_iff_eq.1 hqp] at this
        simp [liveStep] at this
    | _ => rfl

/-- When nothing is registered while `UnregisterAll` runs, nothing is registered when it returns. -/
theorem unregisterAll_quiet (h : Run (tr ++ [(.sweep t, .cleared t)]) s) : ∃ tr0 tr1, Since (.clear t) tr tr0 tr1 ∧
    ((∀ x ∈ tr1, ∀ u p d, x.2 ≠ .registered u p d) → live (tr ++ [(.sweep t, .cleared t)]) = []) := by
  obtain ⟨tr0, tr1, i1, i2⟩ := unregisterAll_exact h
  refine ⟨tr0, tr1, i1, fun hq => ?_⟩
  rw [live_snoc]
  show live tr = []
  cases hl : live tr with
  | nil => rfl
  | cons x l =>
    obtain ⟨e, u, hm⟩ := i2 x.1 x.2 (by rw [hl]; exact List.mem_cons_self ..)
    exact absurd rfl (hq _ hm u x.1 x.2)

/-- What is unregistered was registered. -/
theorem buried_live {e : Ev} {o : Option (Nat × Nat)} (h : Run tr s) (hs : step s e = some (s', .buried t p o)) :
    ∃ d, (p, d) ∈ live tr := by
  obtain ⟨L, D, F⟩ := h.full
  refine ⟨s.data p, (F.inv.trc.live p _).2 ?_⟩
  cases e with
  | bury u =>
    simp only [step] at hs
    split at hs
    · rename_i q hu hg
      cases hs
      have := F.inv.th.ok t
      rw [hu] at this
      exact ⟨this.1, this.2, rfl⟩
    · cases hs
  | sweep u =>
    simp only [step] at hs
    split at hs
    · rename_i q cb hu
      split at hs
      · cases hs
      · rename_i hq0
        split at hs
        · rename_i hd
          cases hs
          have hm := (F.inv.sw t p cb hu).mem hq0
          exact ⟨hm, (F.inv.core.dead p hm).1 hd, rfl⟩
        · cases hs
    · cases hs
  | register u q => simp only [step] at hs; split at hs <;> try split at hs
                    all_goals cases hs
  | new u q => simp only [step] at hs; split at hs <;> cases hs
  | load u => simp only [step] at hs; split at hs <;> cases hs
  | cas u q => simp only [step] at hs; split at hs <;> try split at hs
               all_goals cases hs
  | unregister u q =>
    simp only [step] at hs
    split at hs
    · simp only [Option.some.injEq, Prod.mk.injEq] at hs
      have := hs.2
      split at this <;> cases this
    · cases hs
  | setDispose f => cases hs
  | iterate u => simp only [step] at hs; split at hs <;> cases hs
  | visit u => simp only [step] at hs; split at hs <;> try split at hs
               · cases hs
               · split at hs <;> cases hs
               · cases hs
  | clear u => simp only [step] at hs; split at hs <;> cases hs

/-- `Unregister(p)` calls the callback in force, if any, with the sample and what was registered. -/
theorem unregister_callback {o : Out} (h : Run tr s) (hp : Pre tr (.unregister t p)) (hs : step s (.unregister t p) = some (s', o)) :
    ∃ d, (p, d) ∈ live tr ∧ o = match callback tr with
      | none => .none
      | some f => .disposed t f p d := by
  obtain ⟨L, D, F⟩ := h.full
  obtain ⟨⟨d, hl⟩, -, -⟩ := hp
  refine ⟨d, hl, ?_⟩
  simp only [step] at hs
  split at hs
  · cases hs
    rw [F.cb.cb, ((F.inv.trc.live p d).1 hl).2.2]
    rfl
  · cases hs

/-- `UnregisterAll` calls the callback that was in force when it began, if any, with each sample it unregisters and what was registered. -/
theorem unregisterAll_callback {o : Option (Nat × Nat)} (h : Run tr s) (hs : step s (.sweep t) = some (s', .buried t p o)) :
    ∃ tr0 tr1 d, Since (.clear t) tr tr0 tr1 ∧ (p, d) ∈ live tr ∧ o = (callback tr0).map fun f => (f, d) := by
  obtain ⟨L, D, F⟩ := h.full
  obtain ⟨d, hl⟩ := buried_live h hs
  simp only [step] at hs
  split at hs
  · rename_i q cb ht
    split at hs
    · cases hs
    · split at hs
      · cases hs
        obtain ⟨tr0, tr1, i1, i2⟩ := F.cb.sw t p cb ht
        exact ⟨tr0, tr1, d, i1, hl, by rw [i2, ((F.inv.trc.live p d).1 hl).2.2]⟩
      · cases hs
  · cases hs

theorem exists_fresh (l : List Nat) : ∃ a, a ∉ l ∧ 1 < a := by
  have h : ∀ l : List Nat, (∀ q ∈ l, q ≤ l.foldr Nat.max 1) ∧ 1 ≤ l.foldr Nat.max 1 := fun l => by
    induction l with
    | nil => exact ⟨fun q hq => (by cases hq), Nat.le_refl _⟩
    | cons a l ih =>
      refine ⟨fun q hq => ?_, Nat.le_trans ih.2 (Nat.le_max_right ..)⟩
      rcases List.mem_cons.1 hq with rfl | hq
      · exact Nat.le_max_left ..
      · exact Nat.le_trans (ih.1 q hq) (Nat.le_max_right ..)
  exact ⟨l.foldr Nat.max 1 + 1, fun hh => absurd ((h l).1 _ hh) (Nat.not_succ_le_self _), Nat.succ_le_succ (h l).2⟩

/-- A thread in the middle of a call can move, or waits for the graveyard's lock, whose holder can move. -/
theorem not_stuck (h : Run tr s) (ht : s.th t ≠ .idle) :
    (∃ e s' o, e.thread = some t ∧ Pre tr e ∧ step s e = some (s', o)) ∨
    ∃ u e s' o, s.gl = some u ∧ e.thread = some u ∧ Pre tr e ∧ step s e = some (s', o) := by
  obtain ⟨L, D, F⟩ := h.full
  cases hth : s.th t with
  | idle => exact absurd hth ht
  | want d =>
    obtain ⟨a, h1, h2⟩ := exists_fresh (made tr)
    exact Or.inl ⟨.new t a, _, _, rfl, ⟨h1, by omega, by show a ≠ 1; omega⟩, by simp only [step, hth]; rfl⟩
  | made p d => exact Or.inl ⟨.load t, _, _, rfl, trivial, by simp only [step, hth]; rfl⟩
  | push p d =>
    left
    by_cases hh : s.all = s.next p
    · exact ⟨.cas t false, _, _, rfl, trivial, by simp only [step, hth]; rw [if_pos ⟨hh, trivial⟩]⟩
    · exact ⟨.cas t false, _, _, rfl, trivial, by simp only [step, hth]; rw [if_neg (fun a => hh a.1)]⟩
  | dying p =>
    cases hg : s.gl with
    | none => exact Or.inl ⟨.bury t, _, _, rfl, trivial, by simp only [step, hth, hg]; rfl⟩
    | some u =>
      right
      obtain ⟨q, cb, hu⟩ := (F.inv.th.gl u).1 hg
      by_cases h0 : q = 0
      · exact ⟨u, .sweep u, _, _, rfl, rfl, trivial, by simp only [step, hu]; rw [if_pos h0]⟩
      · by_cases h1 : s.dead q = 0
        · exact ⟨u, .sweep u, _, _, rfl, rfl, trivial, by simp only [step, hu]; rw [if_neg h0, if_pos h1]⟩
        · exact ⟨u, .sweep u, _, _, rfl, rfl, trivial, by simp only [step, hu]; rw [if_neg h0, if_neg h1]⟩
  | iter q out =>
    left
    by_cases h0 : q = 0
    · exact ⟨.visit t, _, _, rfl, trivial, by simp only [step, hth]; rw [if_pos h0]⟩
    · by_cases h1 : s.dead q = 0
      · exact ⟨.visit t, _, _, rfl, trivial, by simp only [step, hth]; rw [if_neg h0, if_pos h1]⟩
      · exact ⟨.visit t, _, _, rfl, trivial, by simp only [step, hth]; rw [if_neg h0, if_neg h1]⟩
  | sweep q cb =>
    left
    by_cases h0 : q = 0
    · exact ⟨.sweep t, _, _, rfl, trivial, by simp only [step, hth]; rw [if_pos h0]⟩
    · by_cases h1 : s.dead q = 0
      · exact ⟨.sweep t, _, _, rfl, trivial, by simp only [step, hth]; rw [if_neg h0, if_pos h1]⟩
      · exact ⟨.sweep t, _, _, rfl, trivial, by simp only [step, hth]; rw [if_neg h0, if_neg h1]⟩

/-! ### A history -/

def preB (tr : Trace) : Ev → Bool
  | .new _ p => !(made tr).contains p && p != 0 && p != G
  | .unregister _ p => (live tr).any (fun x => x.1 == p) && !ending p tr && !clearing tr
  | .clear _ => tr.all fun x => match x.1 with
    | .unregister _ p => !ending p tr
    | _ => true
  | _ => true

theorem ending_noted {p : Nat} (h : ending p tr = true) : ∃ x ∈ tr, ∃ t, x.1 = .unregister t p := by
  suffices ∀ (l : Trace) b, l.foldl (endingStep p) b = true → b = true ∨ ∃ x ∈ l, ∃ t, x.1 = .unregister t p from (this tr false h).resolve_left (fun h => (by cases h))
  intro l
  induction l with
  | nil => exact fun b h => Or.inl h
  | cons x l ih =>
    intro b hb
    rcases ih _ hb with h | ⟨y, hy, hh⟩
    · obtain ⟨e, o⟩ := x
      cases e with
      | unregister u q =>
        have h : (b || q == p) = true := h
        rcases (Bool.or_eq_true_iff ..).1 h with h | h
        · exact Or.inl h
        · exact Or.inr ⟨_, List.mem_cons_self .., u, by rw [← beq_iff_eq.1 h]⟩
      | _ =>
        cases o with
        | buried a c f =>
          have h : (b && c != p) = true := h
          exact Or.inl ((Bool.and_eq_true_iff ..).1 h).1
        | _ => exact Or.inl h
    · exact Or.inr ⟨y, List.mem_cons_of_mem _ hy, hh⟩

theorem preB_ok {e : Ev} (h : preB tr e = true) : Pre tr e := by
  cases e with
  | new t p =>
    simp only [preB, Bool.and_eq_true, Bool.not_eq_true', bne_iff_ne] at h
    refine ⟨fun hh => ?_, h.1.2, h.2⟩
    rw [List.contains_iff_mem.2 hh] at h
    exact absurd h.1.1 (by decide)
  | unregister t p =>
    simp only [preB, Bool.and_eq_true, Bool.not_eq_true', List.any_eq_true, beq_iff_eq] at h
    obtain ⟨⟨⟨⟨q, d⟩, h1, rfl⟩, h2⟩, h3⟩ := h
    exact ⟨⟨d, h1⟩, h2, h3⟩
  | clear t =>
    intro p
    cases hh : ending p tr with
    | false => rfl
    | true =>
      obtain ⟨x, hx, u, hu⟩ := ending_noted hh
      have := List.all_eq_true.1 h x hx
      rw [hu] at this
      simp only [hh] at this
      exact absurd this (by decide)
  | _ => trivial

/-- Run the events, checking what is asked of callers. -/
def runAll : List Ev → Trace → St → Option (Trace × St)
  | [], tr, s => some (tr, s)
  | e :: es, tr, s =>
    if preB tr e then
      match step s e with
      | some (s', o) => runAll es (tr ++ [(e, o)]) s'
      | none => none
    else none

theorem runAll_run : ∀ (es : List Ev) (tr : Trace) (s : St) (r : Trace × St), runAll es tr s = some r → Run tr s → Run r.1 r.2
  | [], tr, s, r, h, hr => by cases h; exact hr
  | e :: es, tr, s, r, h, hr => by
    simp only [runAll] at h
    split at h
    · rename_i hp
      split at h
      · rename_i s' o hs
        exact runAll_run es _ _ r h (.step hr (preB_ok hp) hs)
      · cases h
    · cases h

/-- Two threads race to publish; a third takes a profile while a sample is unregistered; its memory is used again; then all are unregistered
while another is registered. -/
def story : List Ev :=
  [.setDispose (some 9), .register 1 10, .new 1 5, .load 1, .cas 1 false, .register 2 20, .new 2 6, .load 2, .register 1 30, .new 1 7, .load 1, .cas 1 true,
    .cas 1 false, .cas 2 false, .cas 2 false, .iterate 3, .visit 3, .unregister 1 5, .bury 1, .visit 3, .visit 3, .visit 3, .register 1 40,
    .register 2 50, .new 2 8, .clear 3, .sweep 3, .setDispose none, .load 2, .cas 2 false, .sweep 3, .sweep 3, .sweep 3]

theorem story_some : (runAll story [] init).isSome = true := by decide +kernel
def storyTr : Trace := ((runAll story [] init).get story_some).1
def storySt : St := ((runAll story [] init).get story_some).2
theorem story_run : Run storyTr storySt := runAll_run story [] init _ (Option.some_get story_some).symm .init

/-- What it gives. -/
example : storyTr.filterMap (fun x => if x.2 = .none then none else some x.2) =
    [.was none, .registered 1 5 10, .registered 1 7 30, .registered 2 6 20, .disposed 1 9 5 10, .buried 1 5 none, .profile 3 [(6, 20), (7, 30)],
      .registered 1 5 40, .buried 3 6 (some (9, 20)), .was (some 9), .registered 2 8 50, .buried 3 7 (some (9, 30)), .buried 3 5 (some (9, 40)), .cleared 3] := by
  decide +kernel

/-- At the end only the sample registered during `UnregisterAll` is registered. -/
example : live storyTr = [(8, 50)] := by decide +kernel

/-- The theorems apply: to the profile, -/
theorem story22_some : (runAll (story.take 22) [] init).isSome = true := by decide +kernel
def storyTr21 : Trace := ((runAll (story.take 22) [] init).get story22_some).1.dropLast
theorem story22_eq : ((runAll (story.take 22) [] init).get story22_some).1 = storyTr21 ++ [(.visit 3, .profile 3 [(6, 20), (7, 30)])] := by decide +kernel
example : ∃ s, Run (storyTr21 ++ [(.visit 3, .profile 3 [(6, 20), (7, 30)])]) s :=
  ⟨_, story22_eq ▸ runAll_run _ [] init _ (Option.some_get story22_some).symm .init⟩

/-- and to `UnregisterAll`. -/
theorem story_eq : storyTr = storyTr.dropLast ++ [(.sweep 3, .cleared 3)] := by decide +kernel
example : Run (storyTr.dropLast ++ [(.sweep 3, .cleared 3)]) storySt := story_eq ▸ story_run

/-- Memory for another sample is taken while one is in the hands of another `Register` and one is registered. -/
theorem story8_some : (runAll (story.take 8) [] init).isSome = true := by decide +kernel
def story8 : Trace × St := (runAll (story.take 8) [] init).get story8_some
theorem story8_run : Run story8.1 story8.2 := runAll_run _ [] init _ (Option.some_get story8_some).symm .init
example : (step story8.2 (.register 1 30)).map (·.2) = some .none ∧ made story8.1 = [5, 6] ∧ live story8.1 = [(5, 10)] := by decide +kernel

end Verif.Recorder
