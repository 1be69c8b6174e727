import Verif.Slab.Conserve
/-! A drain leaves nothing behind. -/
namespace Verif.Slab

/-- Classes below this one have been drained. -/
def RStage.upTo : RStage → Nat
  | .dr1 k | .dr2 k _ _ | .dr3 k _ => k
  | _ => 0

/-- Classes already drained are empty and have no capacity. -/
def D (cfg : Cfg) (w : W) : Prop :=
  ∀ c i st, w.rem c = some (i, st) → ∀ a, Valid cfg.nc a → a < st.upTo → w.cell c a = [] ∧ w.space c a = 0

/-- How a step changes the holders of the locks. -/
theorem rem_step {cfg} {w w' : W} (k : K cfg w) {i : Nat} {th : Thread} {cpu : Nat} {ch : Ch} {out : Out}
    (hi : w.thr[i]? = some th) (h : stepThread cfg w i th cpu ch = some (w', out)) (c : Nat) :
    w'.rem c = w.rem c ∨ th.pc = .remote c ∨ (w.rem c = none ∧ w'.rem c = some (i, .locked true)) := by
  have ok := k.thr i th hi
  unfold ThOK at ok
  unfold stepThread at h
  cases hpc : th.pc <;> rw [hpc] at h <;> simp only at h
  case remote c0 =>
    by_cases e : c = c0
    · subst e; exact Or.inr (Or.inl rfl)
    · left
      rw [hpc] at ok
      simp only at ok
      obtain ⟨st, hst, -⟩ := ok
      simp only [hst] at h
      cases st <;> simp only [stepStop, stepBody] at h
      case ready p =>
        cases p <;> simp only at h
        all_goals
          repeat' split at h
          all_goals first
            | (cases h; done)
            | (injection h with h; injection h with h1 h2; subst h1 h2; exact if_neg e)
      all_goals
        repeat' split at h
        all_goals first
          | (cases h; done)
          | (injection h with h; injection h with h1 h2; subst h1 h2; exact if_neg e)
          | (injection h with h; injection h with h1 h2; subst h1 h2; rfl)
  case all =>
    left
    rw [hpc] at ok
    simp only at ok
    obtain ⟨r, hr, -⟩ := ok
    simp only [hr] at h
    cases hp : r.post <;> rw [hp] at h <;> simp only [stepPre, stepPost] at h
    all_goals
      repeat' split at h
      all_goals first
        | (cases h; done)
        | (injection h with h; injection h with h1 h2; subst h1 h2; rfl)
  case idle => injection h with h; injection h with h1 h2; subst h1 h2; exact Or.inl rfl
  case cache9 v =>
    simp only [stepCache] at h
    split at h
    · rename_i hc
      injection h with h; injection h with h1 h2; subst h1 h2
      by_cases e : c = v
      · subst e; exact Or.inr (Or.inr ⟨hc.1, if_pos rfl⟩)
      · exact Or.inl (if_neg e)
    · injection h with h; injection h with h1 h2; subst h1 h2; exact Or.inl rfl
  all_goals
    left
    simp only [stepPush, stepPop, stepPushB, stepPopB, stepGrow, stepCache] at h
    repeat' split at h
    all_goals first
      | (cases h; done)
      | (injection h with h; injection h with h1 h2; subst h1 h2; rfl)

/-- A thread whose operation changed the objects or the capacity of its CPU had a usable pointer. -/
theorem worker {cfg} {w w' : W} (k : K cfg w) {i : Nat} {th : Thread} {cpu : Nat} {ch : Ch} {out : Out}
    (hi : w.thr[i]? = some th) (hcpu : th.cpu = some cpu) (h : stepThread cfg w i th cpu ch = some (w', out))
    (ho : match out with
      | .pushed true | .popped (some _) | .pushedB (_ + 1) | .poppedB (_ :: _) | .grew (_ + 1) => True
      | _ => False) : NoFence w i cpu := by
  have ok := k.thr i th hi
  unfold ThOK at ok
  unfold stepThread at h
  have fin : ∀ {b c : Nat}, In w i th b c → NoFence w i cpu := by
    intro b c g
    have := g.2.cpu
    rw [hcpu] at this
    injection this with this
    subst this
    exact g.2.nf
  cases hpc : th.pc <;> rw [hpc] at h ok <;> simp only at h ok
  case push4 => exact fin ok.2.2.1
  case pop4 => exact fin ok.2.1
  case pushB3 => exact fin ok.2.2.1
  case popB3 => exact fin ok.2.2.1
  case grow5 =>
    rcases ok.2.1 with g | ⟨b, c, e, g⟩
    · exact absurd g ok.2.2.1
    · exact fin ⟨e, g⟩
  case remote c0 =>
    obtain ⟨st, hst, -⟩ := ok
    simp only [hst] at h
    exfalso
    cases st <;> simp only [stepStop, stepBody] at h
    case ready p =>
      cases p <;> simp only at h
      all_goals
        repeat' split at h
        all_goals first
          | (cases h; done)
          | (injection h with h; injection h with h1 h2; subst h1 h2; exact ho)
    case locked p =>
      repeat' split at h
      all_goals first
        | (cases h; done)
        | (injection h with h; injection h with h1 h2; subst h1; subst h2; first | exact ho | (cases p <;> exact ho))
    case fin p =>
      injection h with h; injection h with h1 h2; subst h1; subst h2
      cases p <;> exact ho
    all_goals
      repeat' split at h
      all_goals first
        | (cases h; done)
        | (injection h with h; injection h with h1 h2; subst h1 h2; exact ho)
  case all =>
    obtain ⟨r, hr, -⟩ := ok
    simp only [hr] at h
    exfalso
    cases hp : r.post <;> rw [hp] at h <;> simp only [stepPre, stepPost] at h
    all_goals
      repeat' split at h
      all_goals first
        | (cases h; done)
        | (injection h with h; injection h with h1 h2; subst h1 h2; exact ho)
  case idle => injection h with h; injection h with h1 h2; subst h1 h2; exact absurd ho id
  all_goals
    exfalso
    simp only [stepPush, stepPop, stepPushB, stepPopB, stepGrow, stepCache] at h
    repeat' split at h
    all_goals first
      | (cases h; done)
      | (injection h with h; injection h with h1 h2; subst h1 h2; exact ho)

/-- Which CPU's objects an operation hands out. -/
theorem handler {cfg} {w w' : W} (k : K cfg w) {i : Nat} {th : Thread} {cpu : Nat} {ch : Ch} {out : Out} {c : Nat}
    (hi : w.thr[i]? = some th) (h : stepThread cfg w i th cpu ch = some (w', out))
    (ho : match out with
      | .handed c' _ _ _ | .shrunk c' _ _ | .grewOther c' _ _ => c' = c
      | _ => False) : th.pc = .remote c ∨ w.rem c = none := by
  have ok := k.thr i th hi
  unfold ThOK at ok
  unfold stepThread at h
  cases hpc : th.pc <;> rw [hpc] at h ok <;> simp only at h ok
  case remote c0 =>
    left
    obtain ⟨st, hst, -⟩ := ok
    simp only [hst] at h
    cases st <;> simp only [stepStop, stepBody] at h
    case ready p =>
      cases p <;> simp only at h
      all_goals
        repeat' split at h
        all_goals first
          | (cases h; done)
          | (injection h with h; injection h with h1 h2; subst h1 h2; exact absurd ho id)
    case locked p =>
      repeat' split at h
      all_goals first
        | (cases h; done)
        | (injection h with h; injection h with h1 h2; subst h1; subst h2; first | exact absurd ho id | (cases p <;> exact absurd ho id))
    case fin p =>
      injection h with h; injection h with h1 h2; subst h1; subst h2
      cases p <;> exact absurd ho id
    all_goals
      repeat' split at h
      all_goals first
        | (cases h; done)
        | (injection h with h; injection h with h1 h2; subst h1 h2; exact absurd ho id)
        | (injection h with h; injection h with h1 h2; subst h1 h2; exact congrArg PC.remote ho)
  case all =>
    right
    obtain ⟨r, hr, -⟩ := ok
    simp only [hr] at h
    cases hp : r.post with
    | none =>
      rw [hp] at h
      simp only [stepPre] at h
      repeat' split at h
      all_goals first
        | (cases h; done)
        | (injection h with h; injection h with h1 h2; subst h1 h2; exact absurd ho id)
    | some p =>
      rw [hp] at h
      have hlock : p.oc < cfg.n → w.rem c = none := by
        intro hlt
        apply k.excl
        unfold W.allFree
        rw [hr]
        simp only [hp]
        cases hu : p.unlocked with
        | false => rfl
        | true =>
          have := (((k.rs i r hr).2.post p hp).2.unl hu).2
          omega
      simp only [stepPost] at h
      repeat' split at h
      all_goals first
        | (cases h; done)
        | (injection h with h; injection h with h1 h2; subst h1 h2; exact absurd ho id)
        | (injection h with h; injection h with h1 h2; subst h1 h2; exact hlock (by assumption))
  case idle => injection h with h; injection h with h1 h2; subst h1 h2; exact absurd ho id
  all_goals
    exfalso
    simp only [stepPush, stepPop, stepPushB, stepPopB, stepGrow, stepCache] at h
    repeat' split at h
    all_goals first
      | (cases h; done)
      | (injection h with h; injection h with h1 h2; subst h1 h2; exact ho)

/-- Nobody else changes the objects or capacities of a CPU that is being drained. -/
theorem still {cfg} {w w' : W} (k : K cfg w) {i o : Nat} {th : Thread} {cpu : Nat} {ch : Ch} {out : Out} {c : Nat} {st : RStage}
    (hi : w.thr[i]? = some th) (hcpu : th.cpu = some cpu) (h : stepThread cfg w i th cpu ch = some (w', out))
    (hrem : w.rem c = some (o, st)) (hf : st.fenced c) (hpc : th.pc ≠ .remote c) (a : Nat) (ha : Valid cfg.nc a) :
    w'.cell c a = w.cell c a ∧ w'.space c a = w.space c a := by
  have hcn := (k.rem c o st hrem).1
  have hne : o ≠ i := by
    rintro rfl
    obtain ⟨th', h1, h2⟩ := (k.rem c o st hrem).2.1
    rw [hi] at h1; injection h1 with h1; subst h1
    exact hpc h2
  have nf : NoFence w i cpu → c ≠ cpu := by
    rintro h rfl
    exact hne (h o (Or.inl ⟨st, hrem, hf⟩))
  have nr : ¬ (th.pc = .remote c ∨ w.rem c = none) := by
    rintro (h | h)
    · exact hpc h
    · rw [hrem] at h; cases h
  have ef := thread_effect k hi hcpu h
  cases out
  case tau => exact ef.1 c a hcn ha
  case cached => exact ef.1 c a hcn ha
  case pushed b =>
    cases b
    · obtain ⟨x, y, _, _, s, _⟩ := ef; exact s c a hcn ha
    · obtain ⟨x, y, _, _, s, _⟩ := ef
      have := nf (worker k hi hcpu h trivial)
      exact s c a hcn ha (fun e => this e.1)
  case popped b =>
    cases b
    · obtain ⟨x, _, s, _⟩ := ef; exact s c a hcn ha
    · obtain ⟨x, _, s, _⟩ := ef
      have := nf (worker k hi hcpu h trivial)
      exact s c a hcn ha (fun e => this e.1)
  case pushedB n =>
    obtain ⟨x, l, _, _, s, _, e2, e3, _⟩ := ef
    cases n with
    | zero =>
      by_cases e : c = cpu ∧ a = x
      · obtain ⟨rfl, rfl⟩ := e
        exact ⟨by rw [e3]; simp, e2⟩
      · exact s c a hcn ha e
    | succ n =>
      have := nf (worker k hi hcpu h trivial)
      exact s c a hcn ha (fun e => this e.1)
  case poppedB l =>
    obtain ⟨x, _, s, _, e2, e3, _⟩ := ef
    cases l with
    | nil =>
      by_cases e : c = cpu ∧ a = x
      · obtain ⟨rfl, rfl⟩ := e
        exact ⟨by rw [e3]; simp, e2⟩
      · exact s c a hcn ha e
    | cons y l =>
      have := nf (worker k hi hcpu h trivial)
      exact s c a hcn ha (fun e => this e.1)
  case grew n =>
    obtain ⟨x, _, s, _, e2, e3, _⟩ := ef
    cases n with
    | zero =>
      by_cases e : c = cpu ∧ a = x
      · obtain ⟨rfl, rfl⟩ := e
        exact ⟨e2, e3⟩
      · exact s c a hcn ha e
    | succ n =>
      have := nf (worker k hi hcpu h trivial)
      exact s c a hcn ha (fun e => this e.1)
  case handed c' x l cap =>
    obtain ⟨_, s, _⟩ := ef
    by_cases e : c' = c
    · exact absurd (handler k hi h e) nr
    · exact s c a hcn ha (fun h => e h.1.symm)
  case shrunk c' x n =>
    obtain ⟨_, s, _⟩ := ef
    by_cases e : c' = c
    · exact absurd (handler k hi h e) nr
    · exact s c a hcn ha (fun h => e h.1.symm)
  case grewOther c' x n =>
    obtain ⟨_, s, _⟩ := ef
    by_cases e : c' = c
    · exact absurd (handler k hi h e) nr
    · exact s c a hcn ha (fun h => e h.1.symm)

theorem K.left_of_rem {cfg w} (k : K cfg w) {c o : Nat} {st : RStage} (hrem : w.rem c = some (o, st)) (a : Nat) :
    w.left c a = [] ∧ w.leftCapacity c a = 0 := by
  have hcn := (k.rem c o st hrem).1
  apply left_none
  unfold W.old
  split
  · rename_i o r hr
    obtain ⟨p, hpo, hun⟩ := allFree_post (k.unlocked_of_rem hrem) hr
    rw [hpo]
    simp only
    have := (((k.rs o r hr).2.post p hpo).2.unl hun).2
    rw [if_neg]
    unfold Post.pending
    rw [decide_eq_true_eq]
    omega
  · rfl

theorem thread_D {cfg} {w w' : W} (k : K cfg w) (d : D cfg w) {i : Nat} {th : Thread} {cpu : Nat} {ch : Ch} {out : Out}
    (hi : w.thr[i]? = some th) (hcpu : th.cpu = some cpu) (h : stepThread cfg w i th cpu ch = some (w', out)) : D cfg w' := by
  intro c o st' hr' a ha hlt
  rcases Classical.em (th.pc = .remote c) with hpc | hpc
  · -- the holder of the lock
    have ok := k.thr i th hi
    unfold ThOK at ok
    rw [hpc] at ok
    simp only at ok
    obtain ⟨st, hst, -⟩ := ok
    have hcn := (k.rem c i st hst).1
    have sok := (k.rem c i st hst).2.2
    have dd := d c i st hst a ha
    have ef := thread_effect k hi hcpu h
    have h0 := h
    unfold stepThread at h
    rw [hpc] at h
    simp only [hst] at h
    have me : ∀ {st1 : RStage}, (if c = c then some (i, st1) else w.rem c) = some (o, st') → st1 = st' := by
      intro st1 e
      rw [if_pos rfl] at e
      injection e with e; injection e
    -- stages from which no stage of a drain is reached
    have zero : st'.upTo = 0 → False := by intro e; omega
    cases st <;> simp only [stepStop, stepBody] at h
    case dr1 x =>
      split at h
      · injection h with h; injection h with h1 h2; subst h1 h2
        exact absurd (by rw [← me hr']; rfl) zero
      · split at h
        · cases h
        · rename_i hx _
          have hv : Valid cfg.nc x := ⟨sok.2, by omega⟩
          split at h
          · rename_i h0
            have := (k.reg c sok.1).lo x hv
            have := begins_pos k hv
            omega
          · injection h with h; injection h with h1 h2; subst h2
            have e : st' = .dr2 x (w.begins x) (w.mem.hdr w.slabs c x) := by subst h1; exact (me hr').symm
            subst e
            rw [(ef.1 c a hcn ha).1, (ef.1 c a hcn ha).2]
            exact dd hlt
    case dr2 x beg hd =>
      split at h
      · cases h
      · injection h with h; injection h with h1 h2; subst h2
        have e : st' = .dr3 x beg := by subst h1; exact (me hr').symm
        subst e
        have hlt' : a < x := hlt
        obtain ⟨_, s, _⟩ := ef
        have := s c a hcn ha (fun e => by omega)
        rw [this.1, this.2]
        exact dd hlt
    case dr3 x beg =>
      injection h with h; injection h with h1 h2; subst h2
      have e : st' = .dr1 (x + 1) := by subst h1; exact (me hr').symm
      subst e
      have hlt' : a < x + 1 := hlt
      rw [(ef.1 c a hcn ha).1, (ef.1 c a hcn ha).2]
      by_cases e : a = x
      · subst e
        have l := k.left_of_rem hst a
        unfold W.cell W.space W.stack W.capacity
        rw [l.1, l.2, if_pos sok.1, if_pos sok.1, eff_dr3 hst, if_pos rfl]
        simp [Mem.words]
      · exact dd (show a < x by omega)
    case ready p =>
      exfalso
      cases p <;> simp only at h
      all_goals
        repeat' split at h
        all_goals first
          | (cases h; done)
          | (injection h with h; injection h with h1 h2; subst h1 h2
             have e := me hr'
             rw [← e] at hlt
             have := ha.1
             simp only [RStage.upTo] at hlt
             omega)
    all_goals
      exfalso
      repeat' split at h
      all_goals first
        | (cases h; done)
        | (injection h with h; injection h with h1 h2; subst h1 h2
           have e := me hr'
           exact zero (by rw [← e]; rfl))
        | (injection h with h; injection h with h1 h2; subst h1
           have e : (if c = c then none else w.rem c) = some (o, st') := hr'
           rw [if_pos rfl] at e
           cases e)
        | (injection h with h; injection h with h1 h2; subst h1
           rw [hst] at hr'
           injection hr' with e; injection e with _ e
           exact zero (by rw [← e]; rfl))
  · rcases rem_step k hi h c with e | e | ⟨_, e⟩
    · rw [e] at hr'
      have hf : st'.fenced c := by
        cases st' <;> first | (exact absurd hlt (Nat.not_lt_zero _)) | exact trivial
      have := still k hi hcpu h hr' hf hpc a ha
      rw [this.1, this.2]
      exact d c o st' hr' a ha hlt
    · exact absurd e hpc
    · rw [e] at hr'
      injection hr' with e; injection e with _ e
      subst e
      exact absurd hlt (Nat.not_lt_zero _)

/-- Calls, the scheduler and the lower layers leave objects and capacities alone. -/
theorem quiet {cfg} {w w' : W} {e : Ev} {out : Out} (hpre : Pre cfg w e) (hna : ∀ i ch, e ≠ .act i ch)
    (h : step cfg w e = some (w', out)) :
    Same cfg w w' ∧ ∀ c, w'.rem c = w.rem c ∨ ∃ i, w'.rem c = some (i, .locked false) := by
  have same : ∀ {w'' : W}, w''.mem = w.mem → w''.slabs = w.slabs → w''.begins = w.begins → w''.populated = w.populated →
      w''.rs = w.rs → w''.rem = w.rem → Same cfg w w'' ∧ ∀ c, w''.rem c = w.rem c ∨ ∃ i, w''.rem c = some (i, .locked false) :=
    fun a b c d e f => ⟨same_rfl a b c d e f, fun c => Or.inl (by rw [f])⟩
  cases e
  case act i ch => exact absurd rfl (hna i ch)
  case call i op =>
    obtain ⟨th, hi, hidle, hc, hpre⟩ := hpre
    simp only [step, hi] at h
    injection h with h
    cases op <;> simp only [call] at h <;> simp only at hpre
    case cache =>
      split at h <;> (injection h with h1 h2; subst h1; exact same rfl rfl rfl rfl rfl rfl)
    case remote c =>
      injection h with h1 h2
      have fl : w'.mem = w.mem ∧ w'.slabs = w.slabs ∧ w'.begins = w.begins ∧ w'.populated = w.populated ∧
          w'.rs = w.rs ∧ w'.rem = (w.setRem i c (.locked false)).rem := by
        subst h1; exact ⟨rfl, rfl, rfl, rfl, rfl, rfl⟩
      obtain ⟨f1, f2, f3, f4, f5, f6⟩ := fl
      constructor
      · refine rem_plain (c := c) f1 f2 f3 f4 f5 (fun c' h => by rw [f6]; exact setRem_ne h) (Plain.none hpre.2.1)
          (Plain.of (by rw [f6]; exact setRem_me) (by simp) (by simp))
      · intro c'
        by_cases e : c' = c
        · subst e; exact Or.inr ⟨i, by rw [f6]; exact setRem_me⟩
        · exact Or.inl (by rw [f6]; exact setRem_ne e)
    case resize nb ncaps lim =>
      injection h with h1 h2
      have fl : w'.mem = w.mem ∧ w'.slabs = w.slabs ∧ w'.begins = w.begins ∧ w'.populated = w.populated ∧
          w'.rs = some (i, ⟨some (nb, ncaps, lim), 0, 0, none, none⟩) ∧ w'.rem = w.rem := by
        subst h1; exact ⟨rfl, rfl, rfl, rfl, rfl, rfl⟩
      obtain ⟨f1, f2, f3, f4, f5, f6⟩ := fl
      refine ⟨Same.of_at fun c' k' _ _ => ?_, fun c => Or.inl (by rw [f6])⟩
      have st := all_cells (w := w) (w' := w') f2 f3 f6 f4 (fun _ => by rw [f1]; exact ⟨fun _ => rfl, fun _ => rfl⟩) c' k'
      have l0 := left_none (w := w) (c := c') (k := k') (old_none (by intro j r e; rw [hpre.2.2.1] at e; cases e))
      have l1 := left_none (w := w') (c := c') (k := k') (old_none (by
        intro j r e; rw [f5] at e; injection e with e; injection e with _ e; subst e; rfl))
      exact ⟨st.1, st.2, by rw [l0.1, l1.1], by rw [l0.2, l1.2]⟩
    case release =>
      injection h with h1 h2
      have fl : w'.mem = w.mem ∧ w'.slabs = w.slabs ∧ w'.begins = w.begins ∧ w'.populated = w.populated ∧
          w'.rs = some (i, ⟨none, 0, cfg.n, none, none⟩) ∧ w'.rem = w.rem := by
        subst h1; exact ⟨rfl, rfl, rfl, rfl, rfl, rfl⟩
      obtain ⟨f1, f2, f3, f4, f5, f6⟩ := fl
      refine ⟨Same.of_at fun c' k' _ _ => ?_, fun c => Or.inl (by rw [f6])⟩
      have st := all_cells (w := w) (w' := w') f2 f3 f6 f4 (fun _ => by rw [f1]; exact ⟨fun _ => rfl, fun _ => rfl⟩) c' k'
      have l0 := left_none (w := w) (c := c') (k := k') (old_none (by intro j r e; rw [hpre.1] at e; cases e))
      have l1 := left_none (w := w') (c := c') (k := k') (old_none (by
        intro j r e; rw [f5] at e; injection e with e; injection e with _ e; subst e; rfl))
      exact ⟨st.1, st.2, by rw [l0.1, l1.1], by rw [l0.2, l1.2]⟩
    all_goals (injection h with h1 h2; subst h1; exact same rfl rfl rfl rfl rfl rfl)
  case schedOut i =>
    obtain ⟨th, hi, _⟩ := hpre
    simp only [step, hi] at h
    injection h with h; injection h with h1 h2; subst h1
    exact same rfl rfl rfl rfl rfl rfl
  case schedIn i c =>
    obtain ⟨_, ⟨th, hi, _⟩, _⟩ := hpre
    simp only [step, hi] at h
    injection h with h; injection h with h1 h2; subst h1
    exact same rfl rfl rfl rfl rfl rfl
  case signal i =>
    obtain ⟨th, hi⟩ := hpre
    simp only [step, hi] at h
    injection h with h; injection h with h1 h2; subst h1
    exact same rfl rfl rfl rfl rfl rfl
  case give => 
    simp only [step] at h
    injection h with h; injection h with h1 h2; subst h1
    exact same rfl rfl rfl rfl rfl rfl
  case take => 
    simp only [step] at h
    injection h with h; injection h with h1 h2; subst h1
    exact same rfl rfl rfl rfl rfl rfl

theorem step_D {cfg} {w w' : W} (k : K cfg w) (d : D cfg w) {e : Ev} {out : Out} (hpre : Pre cfg w e)
    (h : step cfg w e = some (w', out)) : D cfg w' := by
  by_cases hna : ∀ i ch, e ≠ .act i ch
  · obtain ⟨s, hr⟩ := quiet hpre hna h
    obtain ⟨w2, out2, h2, k2⟩ := step_K k hpre
    rw [h] at h2
    injection h2 with h2; injection h2 with h2 _; subst h2
    intro c o st hrem a ha hlt
    have hcn := (k2.rem c o st hrem).1
    rw [(s c a hcn ha).1, (s c a hcn ha).2]
    rcases hr c with e | ⟨i, e⟩
    · rw [e] at hrem; exact d c o st hrem a ha hlt
    · rw [e] at hrem
      injection hrem with e; injection e with _ e; subst e
      exact absurd hlt (Nat.not_lt_zero _)
  · have ⟨i, ch, e⟩ : ∃ i ch, e = .act i ch := by
      apply Classical.byContradiction
      intro hn
      exact hna fun i ch e => hn ⟨i, ch, e⟩
    subst e
    obtain ⟨th, hi, hcpu, _⟩ := hpre
    simp only [step, hi] at h
    cases hc : th.cpu with
    | none => exact absurd hc hcpu
    | some cpu => rw [hc] at h; exact thread_D k d hi hc h

theorem Reach.D {cfg w} (h : Reach cfg w) : D cfg w := by
  induction h with
  | init f hi =>
    intro c i st hr
    unfold W.init at hi
    rw [f.initSlabs] at hi
    simp only [Option.some.injEq] at hi
    subst hi
    cases hr
  | step r hp hs ih => exact step_D r.K ih hp hs

end Verif.Slab
