import Verif.Slab.Kind
/-! The slabs as the per-CPU caches see them: what a call, a step, and objects coming and going do. -/
namespace Verif.Slab

variable {cfg : Cfg}

theorem kind_idle {w : W} (k : K cfg w) {i : Nat} {t : Thread} (hi : w.thr[i]? = some t) (h : w.kind t.pc = .idle) :
    t.pc = .idle := by
  have ok := k.thr i t hi
  unfold ThOK at ok
  cases hpc : t.pc <;> rw [hpc] at h ok <;> simp only [W.kind, reduceCtorEq] at h ok ⊢
  obtain ⟨st, hst, -⟩ := ok
  rw [hst] at h
  cases st <;> simp only [RStage.kind] at h <;> (try split at h) <;> cases h

/-- The result of `CacheCpuSlab` is the CPU the thread believes to run on. -/
theorem act_cached {w w' : W} {i : Nat} {th : Thread} {cpu : Nat} {ch : Ch} {v : Nat}
    (hi : w.thr[i]? = some th) (h : stepThread cfg w i th cpu ch = some (w', .cached (some v))) :
    ∃ t', w'.thr[i]? = some t' ∧ t'.ret = v := by
  have fin : ∀ {t' : Thread}, w'.thr = w.thr.set i t' → t'.ret = v → ∃ t', w'.thr[i]? = some t' ∧ t'.ret = v := by
    intro t' e1 e2
    exact ⟨t', by rw [e1]; exact get_set_self hi, e2⟩
  unfold stepThread at h
  cases hpc : th.pc <;> rw [hpc] at h <;> simp only at h
  case remote c =>
    repeat' split at h
    all_goals try simp only [stepStop, stepBody] at h
    all_goals
      repeat' split at h
      all_goals first
        | (cases h; done)
        | (injection h with h; injection h with h1 h2; subst h1
           first
             | (cases h2; done)
             | (injection h2 with h2; injection h2 with h2; exact fin rfl h2)
             | (split at h2
                · injection h2 with h2; injection h2 with h2; exact fin rfl h2
                · cases h2))
  case all =>
    repeat' split at h
    all_goals try simp only [stepPre, stepPost] at h
    all_goals
      repeat' split at h
      all_goals (cases h; done)
  all_goals
    try simp only [stepPush, stepPop, stepPushB, stepPopB, stepGrow, stepCache] at h
    repeat' split at h
    all_goals first
      | (cases h; done)
      | (injection h with h; injection h with h1 h2; subst h1
         first
           | (cases h2; done)
           | (injection h2 with h2; injection h2 with h2; exact fin rfl h2))

/-- What the operation says about the registers. -/
def Regs (pc : PC) : Kind → Prop
  | .push k o => pc.hand = [(k, o)] ∧ pc.cls = some k
  | .pop k => pc.cls = some k
  | .pushB k l => pc.hand = l.map (fun o => (k, o)) ∧ pc.cls = some k
  | .popB k n => pc.cls = some k ∧ pc.want = n
  | .grow k n => pc.cls = some k ∧ pc.want = n
  | _ => True

theorem kind_regs (w : W) (pc : PC) : Regs pc (w.kind pc) := by
  cases pc
  case remote c =>
    have h : w.kind (.remote c) = .idle ∨ ∃ st : RStage, w.kind (.remote c) = st.kind c := by
      simp only [W.kind]
      cases w.rem c with
      | none => exact Or.inl rfl
      | some x => exact Or.inr ⟨x.2, rfl⟩
    rcases h with h | ⟨st, h⟩
    · rw [h]; trivial
    · rw [h]
      cases st <;> simp only [RStage.kind] <;> (try split) <;> trivial
  all_goals first | exact ⟨rfl, rfl⟩ | rfl | trivial

/-- From `s` to `s'` nothing changed for the threads other than `i`, which is now in operation `kd`. -/
structure Under (cfg : Cfg) (s s' : W) (i : Nat) (kd : Kind) (ret : Nat) : Prop where
  reach : Reach cfg s'
  self : ∃ t, s'.thr[i]? = some t ∧ s'.kind t.pc = kd ∧ t.ret = ret
  other : ∀ (j : Nat) (t : Thread), j ≠ i → s.thr[j]? = some t →
    ∃ t', s'.thr[j]? = some t' ∧ s'.kind t'.pc = s.kind t.pc ∧ t'.ret = t.ret

/-- The operation a call leads to. -/
def Op.kind : Op → Kind
  | .push k o => .push k o
  | .pop k => .pop k
  | .pushB k l => .pushB k l
  | .popB k n => .popB k n
  | .grow k len => .grow k len
  | .cache => .cache
  | .uncache => .idle
  | .remote c => .remote c .none
  | .resize .. => .all
  | .release => .all

/-- The objects outside after a call. -/
def Op.rest (held : List (Nat × Nat)) : Op → List (Nat × Nat)
  | .push k o => held.erase (k, o)
  | .pushB k l => eraseAll held (l.map fun o => (k, o))
  | _ => held

/-- A call. -/
theorem call_under {s : W} (r : Reach cfg s) {i : Nat} {t : Thread} {op : Op} (hi : s.thr[i]? = some t)
    (hp : Pre cfg s (.call i op)) :
    ∃ s' out, step cfg s (.call i op) = some (s', out) ∧
      ((Under cfg s s' i op.kind t.ret ∧ out = .tau) ∨
        (op = .cache ∧ ∃ v, Under cfg s s' i .idle v ∧ out = .cached (some v))) ∧
      Same cfg s s' ∧ s'.held = op.rest s.held ∧ (s'.everything cfg).Perm (s.everything cfg) := by
  have hK := r.K
  obtain ⟨s', out, e⟩ := step_defined s r _ hp
  have hsame := others_leave_alone s s' (.call i op) hp (fun _ _ h => by cases h) out e
  have hcons : (s'.everything cfg).Perm (s.everything cfg) := conserved s s' r (.call i op) hp out e
  have hr' : Reach cfg s' := .step r hp e
  refine ⟨s', out, e, ?_, hsame, ?_, hcons⟩
  · simp only [step, hi] at e
    injection e with e
    obtain ⟨t0, ht0, hidle, -, hop⟩ := hp
    rw [hi] at ht0; injection ht0 with ht0; subst ht0
    have mk : ∀ {t' : Thread} {kd : Kind}, s'.thr = s.thr.set i t' → s'.kind t'.pc = kd →
        (∀ c, s.rem c ≠ none → s'.rem c = s.rem c) → Under cfg s s' i kd t'.ret := by
      intro t' kd e1 e2 e3
      refine ⟨hr', ⟨t', by rw [e1]; exact get_set_self hi, e2, rfl⟩, ?_⟩
      intro j tj hj htj
      refine ⟨tj, by rw [e1, List.getElem?_set_ne (fun a => hj a.symm)]; exact htj, ?_, rfl⟩
      refine kind_congr fun c hc => e3 c ?_
      have := hK.thr j tj htj
      unfold ThOK at this
      rw [hc] at this
      obtain ⟨st, hst, -⟩ := this
      rw [hst]; exact fun a => by cases a
    cases op
    case cache =>
      simp only [call] at e
      split at e
      · injection e with e1 e2
        subst e1
        refine Or.inl ⟨mk (t' := { t with pc := .cache1 }) rfl rfl (fun _ _ => rfl), e2.symm⟩
      · injection e with e1 e2
        subst e1
        refine Or.inr ⟨rfl, t.vcpu, mk (t' := { t with ret := t.vcpu }) rfl ?_ (fun _ _ => rfl), e2.symm⟩
        show W.kind _ t.pc = _
        rw [hidle]; rfl
    case uncache =>
      injection e with e1 e2
      subst e1
      refine Or.inl ⟨mk (t' := { t with ptr := .none }) rfl ?_ (fun _ _ => rfl), e2.symm⟩
      show W.kind _ t.pc = _
      rw [hidle]; rfl
    case remote c =>
      injection e with e1 e2
      refine Or.inl ⟨mk (t' := { t with pc := .remote c }) (by subst e1; rfl) ?_ ?_, e2.symm⟩
      · subst e1
        simp [W.kind, W.setRem, RStage.kind, Op.kind]
      · intro c' hc'
        subst e1
        have : c' ≠ c := by rintro rfl; exact hc' hop.2.1
        simp [W.setRem, this, W.goto, W.set]
    case push k o => injection e with e1 e2; subst e1; exact Or.inl ⟨mk (t' := { t with pc := .push0 k o }) rfl rfl (fun _ _ => rfl), e2.symm⟩
    case pop k => injection e with e1 e2; subst e1; exact Or.inl ⟨mk (t' := { t with pc := .pop0 k }) rfl rfl (fun _ _ => rfl), e2.symm⟩
    case pushB k l => injection e with e1 e2; subst e1; exact Or.inl ⟨mk (t' := { t with pc := .pushB0 k l }) rfl rfl (fun _ _ => rfl), e2.symm⟩
    case popB k n => injection e with e1 e2; subst e1; exact Or.inl ⟨mk (t' := { t with pc := .popB0 k n }) rfl rfl (fun _ _ => rfl), e2.symm⟩
    case grow k n => injection e with e1 e2; subst e1; exact Or.inl ⟨mk (t' := { t with pc := .grow0 k n }) rfl rfl (fun _ _ => rfl), e2.symm⟩
    case resize nb nc lim => injection e with e1 e2; subst e1; exact Or.inl ⟨mk (t' := { t with pc := .all }) rfl rfl (fun _ _ => rfl), e2.symm⟩
    case release => injection e with e1 e2; subst e1; exact Or.inl ⟨mk (t' := { t with pc := .all }) rfl rfl (fun _ _ => rfl), e2.symm⟩
  · simp only [step, hi] at e
    injection e with e
    cases op
    case cache => simp only [call] at e; split at e <;> (injection e with e1 e2; subst e1; rfl)
    all_goals (injection e with e1 e2; subst e1; rfl)

/-- A step of an operation. -/
theorem act_under {s : W} (r : Reach cfg s) {i : Nat} {t : Thread} {c : Nat} {ch : Ch} (hi : s.thr[i]? = some t)
    (hc : t.cpu = some c) (hp : Pre cfg s (.act i ch)) :
    ∃ s' out kd ret, step cfg s (.act i ch) = some (s', out) ∧ Under cfg s s' i kd ret ∧
      After s ch out kd (s.kind t.pc) ∧ Effect cfg s s' c t out ∧ (s.kind t.pc ≠ .cache → ret = t.ret) ∧
      (∀ v, out = .cached (some v) → ret = v) ∧ (∀ n, out = .grew n → n = 0 ∨ t.ret = c) ∧
      (s'.everything cfg).Perm (s.everything cfg) := by
  have hK := r.K
  obtain ⟨s', out, e⟩ := step_defined s r _ hp
  have hcons : (s'.everything cfg).Perm (s.everything cfg) := conserved s s' r (.act i ch) hp out e
  have heff := act_effect s s' r i ch t c out hi hc e
  have e' : stepThread cfg s i t c ch = some (s', out) := by
    have e2 := e
    simp only [step, hi, hc] at e2
    exact e2
  obtain ⟨t', h1, h2, h3, h4⟩ := act_self hK hi e'
  have hot : ∀ (j : Nat) (tj : Thread), j ≠ i → s.thr[j]? = some tj →
      ∃ t', s'.thr[j]? = some t' ∧ s'.kind t'.pc = s.kind tj.pc ∧ t'.ret = tj.ret := by
    intro j tj hj htj
    obtain ⟨tj', a, b, _, d⟩ := act_other hK hi e' hj htj
    exact ⟨tj', a, b, d⟩
  refine ⟨s', out, s'.kind t'.pc, t'.ret, e, ⟨.step r hp e, ⟨t', h1, rfl, rfl⟩, hot⟩, h2, heff, h4, ?_, ?_, hcons⟩
  · intro v hv
    subst hv
    obtain ⟨t2, a, b⟩ := act_cached hi e'
    rw [h1] at a; injection a with a
    rw [a]; exact b
  · intro n hn
    subst hn
    exact grew_ret hK hi hc e'

/-- Changing the objects outside does not concern threads and cached objects. -/
theorem held_under {s : W} {h : List (Nat × Nat)} (r : Reach cfg { s with held := h }) {i : Nat} {t : Thread}
    (hi : s.thr[i]? = some t) : Under cfg s { s with held := h } i (s.kind t.pc) t.ret :=
  ⟨r, ⟨t, hi, by cases t.pc <;> rfl, rfl⟩, fun j tj _ htj => ⟨tj, htj, by cases tj.pc <;> rfl, rfl⟩⟩

theorem held_same (s : W) (h : List (Nat × Nat)) : Same cfg s { s with held := h } := fun _ _ _ _ => ⟨rfl, rfl⟩

theorem enter_reach {k : Nat} (hk : Valid cfg.nc k) : ∀ (l : List Nat) {s : W}, Reach cfg s → (∀ o ∈ l, GoodObj o) →
    Reach cfg { s with held := (l.map fun o => (k, o)) ++ s.held }
  | [], _, r, _ => r
  | o :: l, s, r, h => by
    have ih := enter_reach hk l r (fun o ho => h o (List.mem_cons_of_mem _ ho))
    exact .step (e := .give k o) ih ⟨hk, h o (List.mem_cons_self ..)⟩ rfl

theorem release_reach : ∀ (l : List (Nat × Nat)) {s : W}, Reach cfg s → (∀ a, l.count a ≤ s.held.count a) →
    Reach cfg { s with held := eraseAll s.held l }
  | [], _, r, _ => r
  | (k, o) :: l, s, r, h => by
    have hm : (k, o) ∈ s.held := by
      have := h (k, o)
      rw [List.count_cons_self] at this
      exact List.count_pos_iff.mp (by omega)
    have r' : Reach cfg { s with held := s.held.erase (k, o) } := .step (e := .take k o) r hm rfl
    refine release_reach l r' ?_
    intro a
    have := h a
    show l.count a ≤ (s.held.erase (k, o)).count a
    rw [List.count_erase]
    rw [List.count_cons] at this
    omega

theorem everything_mem {s : W} {h : List (Nat × Nat)} {x : Nat × Nat} (hx : x ∈ ({ s with held := h } : W).everything cfg) :
    x ∈ s.everything cfg ∨ x ∈ h := by
  unfold W.everything at hx ⊢
  rw [List.mem_append, List.mem_append] at hx
  rcases hx with (hx | hx) | hx
  · exact Or.inr hx
  · exact Or.inl (List.mem_append_left _ (List.mem_append_right _ hx))
  · exact Or.inl (List.mem_append_right _ hx)

/-- Events of the scheduler. -/
theorem sched_under {s : W} (r : Reach cfg s) {e : Ev} (he : (∃ i, e = .schedOut i) ∨ (∃ i c, e = .schedIn i c) ∨ ∃ i, e = .signal i)
    (hp : Pre cfg s e) :
    ∃ s', step cfg s e = some (s', .tau) ∧ Reach cfg s' ∧ Same cfg s s' ∧ s'.held = s.held ∧
      (s'.everything cfg).Perm (s.everything cfg) ∧
      ∀ (j : Nat) (t : Thread), s.thr[j]? = some t →
        ∃ t', s'.thr[j]? = some t' ∧ s'.kind t'.pc = s.kind t.pc ∧ t'.ret = t.ret := by
  obtain ⟨s', out, hs⟩ := step_defined s r e hp
  have hr' : Reach cfg s' := .step r hp hs
  have hsame := others_leave_alone s s' e hp (by rcases he with ⟨_, rfl⟩ | ⟨_, _, rfl⟩ | ⟨_, rfl⟩ <;> (intro _ _ h; cases h)) out hs
  have hcons : (s'.everything cfg).Perm (s.everything cfg) := by
    have := conserved s s' r e hp out hs
    rcases he with ⟨_, rfl⟩ | ⟨_, _, rfl⟩ | ⟨_, rfl⟩ <;> exact this
  have mk : ∀ {i : Nat} {t t' : Thread}, s.thr[i]? = some t → s' = s.set i t' → (t'.pc = t.pc ∨ t'.pc = t.pc.restart) → t'.ret = t.ret →
      ∀ (j : Nat) (t : Thread), s.thr[j]? = some t →
        ∃ t', s'.thr[j]? = some t' ∧ s'.kind t'.pc = s.kind t.pc ∧ t'.ret = t.ret := by
    intro i t t' hi e1 e2 e3 j tj hj
    subst e1
    have hk : ∀ pc, (s.set i t').kind pc = s.kind pc := by intro pc; cases pc <;> rfl
    by_cases hji : j = i
    · subst hji
      rw [hi] at hj; injection hj with hj; subst hj
      refine ⟨t', get_set_self hi, ?_, e3⟩
      rw [hk]
      rcases e2 with e2 | e2 <;> rw [e2]
      exact restart_kind s t.pc
    · exact ⟨tj, by show (s.thr.set i t')[j]? = _; rw [List.getElem?_set_ne (fun a => hji a.symm)]; exact hj, hk _, rfl⟩
  rcases he with ⟨i, rfl⟩ | ⟨i, c, rfl⟩ | ⟨i, rfl⟩
  · obtain ⟨t, hi, -⟩ := hp
    simp only [step, hi] at hs
    injection hs with hs; injection hs with h1 h2
    refine ⟨s', by simp only [step, hi, h1], hr', hsame, by rw [← h1]; rfl, hcons, mk hi h1.symm (Or.inr rfl) rfl⟩
  · obtain ⟨-, ⟨t, hi, -⟩, -⟩ := hp
    simp only [step, hi] at hs
    injection hs with hs; injection hs with h1 h2
    refine ⟨s', by simp only [step, hi, h1], hr', hsame, by rw [← h1]; rfl, hcons, mk hi h1.symm (Or.inl rfl) rfl⟩
  · obtain ⟨t, hi⟩ := hp
    simp only [step, hi] at hs
    injection hs with hs; injection hs with h1 h2
    refine ⟨s', by simp only [step, hi, h1], hr', hsame, by rw [← h1]; rfl, hcons, mk hi h1.symm (Or.inr rfl) rfl⟩

end Verif.Slab
