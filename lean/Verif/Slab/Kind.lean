import Verif.Slab.Props
/-! What operation a thread is in, and how that changes: the interface of the slabs to the layer above. -/
namespace Verif.Slab

/-- What is being done to a locked and stopped CPU. -/
inductive Sub where
  | none
  | drain
  | shrink (k len : Nat)
  | grow (k len : Nat)
deriving DecidableEq, Repr

/-- The operation a thread is in. -/
inductive Kind where
  | idle
  | push (k o : Nat)
  | pop (k : Nat)
  | pushB (k : Nat) (l : List Nat)
  | popB (k n : Nat)
  | grow (k len : Nat)
  | cache
  | remote (c : Nat) (s : Sub)
  | all
deriving DecidableEq, Repr

def RStage.kind (c : Nat) : RStage → Kind
  | .locked p | .stopping p | .fencing p _ | .ready p | .fin p => if p then .cache else .remote c .none
  | .inited | .started => .cache
  | .dr1 _ | .dr2 .. | .dr3 .. => .remote c .drain
  | .sh1 k len | .sh2 k len _ _ | .sh3 k len _ _ => .remote c (.shrink k len)
  | .go1 k len | .go2 k len _ _ => .remote c (.grow k len)

def W.kind (w : W) : PC → Kind
  | .idle => .idle
  | .push0 k o | .push1 k o _ _ | .push2 k o _ _ _ | .push3 k o _ _ _ | .push4 k o _ _ _ => .push k o
  | .pop0 k | .pop1 k _ _ | .pop2 k _ _ _ | .pop3 k _ _ _ _ | .pop4 k _ _ _ _ => .pop k
  | .pushB0 k l | .pushB1 k l _ _ | .pushB2 k l _ _ _ | .pushB3 k l _ _ _ _ _ => .pushB k l
  | .popB0 k n | .popB1 k n _ _ | .popB2 k n _ _ _ | .popB3 k n _ _ _ _ _ => .popB k n
  | .grow0 k n | .grow1 k n _ | .grow2 k n _ _ | .grow3 k n _ _ _ | .grow4 k n _ _ _ | .grow5 k n _ _ _ => .grow k n
  | .cache1 | .cache2 | .cache3 _ | .cache4 .. | .cache5 .. | .cache6 .. | .cache7 .. | .cache8 _ | .cache9 _ => .cache
  | .remote c => match w.rem c with
    | some (_, st) => st.kind c
    | none => .idle
  | .all => .all

/-- What a step of a thread in an operation can show, and the operation it is in afterwards. -/
def After (w : W) (ch : Ch) (out : Out) (k' : Kind) : Kind → Prop
  | .idle => out = .tau ∧ k' = .idle
  | .push k o => (out = .tau ∧ k' = .push k o) ∨ ∃ b, out = .pushed b ∧ k' = .idle
  | .pop k => (out = .tau ∧ k' = .pop k) ∨ ∃ o, out = .popped o ∧ k' = .idle
  | .pushB k l => (out = .tau ∧ k' = .pushB k l) ∨ ∃ n, n ≤ l.length ∧ out = .pushedB n ∧ k' = .idle
  | .popB k n => (out = .tau ∧ k' = .popB k n) ∨ ∃ l, l.length ≤ n ∧ out = .poppedB l ∧ k' = .idle
  | .grow k n => (out = .tau ∧ k' = .grow k n) ∨ ∃ m, m ≤ n ∧ out = .grew m ∧ k' = .idle
  | .cache => (out = .tau ∧ k' = .cache) ∨ ∃ v, out = .cached v ∧ k' = .idle
  | .remote c .none => out = .tau ∧
      ((∃ o, w.rem c = some (o, .ready false)) ∧ k' = (match ch.op with
          | 0 => .remote c .none
          | 1 => .remote c .drain
          | 2 => .remote c (.shrink ch.k ch.len)
          | _ => .remote c (.grow ch.k ch.len)) ∨
      (∀ o, w.rem c ≠ some (o, .ready false)) ∧ (k' = .remote c .none ∨ k' = .idle))
  | .remote c .drain => (out = .tau ∧ (k' = .remote c .drain ∨ k' = .remote c .none)) ∨
      ∃ k l cap, out = .handed c k l cap ∧ k' = .remote c .drain
  | .remote c (.shrink k len) => (out = .tau ∧ k' = .remote c (.shrink k len)) ∨
      (∃ l, l.length ≤ len ∧ out = .handed c k l 0 ∧ k' = .remote c (.shrink k len)) ∨
      ∃ n, n ≤ len ∧ out = .shrunk c k n ∧ k' = .remote c .none
  | .remote c (.grow k len) => (out = .tau ∧ k' = .remote c (.grow k len)) ∨
      ∃ n, n ≤ len ∧ out = .grewOther c k n ∧ k' = .remote c .none
  | .all => (out = .tau ∧ (k' = .all ∨ k' = .idle)) ∨ ∃ c k l cap, out = .handed c k l cap ∧ k' = .all

theorem restart_kind (w : W) (pc : PC) : w.kind pc.restart = w.kind pc := by cases pc <;> rfl

/-- Only operations on locked CPUs depend on the state. -/
theorem kind_congr {w w' : W} {pc : PC} (h : ∀ c, pc = .remote c → w'.rem c = w.rem c) : w'.kind pc = w.kind pc := by
  cases pc <;> try rfl
  rename_i c
  simp only [W.kind, h c rfl]

theorem get_set_self {α} {l : List α} {i : Nat} {x y : α} (h : l[i]? = some x) : (l.set i y)[i]? = some y := by
  have : i < l.length := (List.getElem?_eq_some_iff.mp h).1
  simp [this]

theorem fence_thr (w : W) (i c : Nat) : (w.fence i c).thr[i]? = w.thr[i]? := by
  simp only [W.fence, List.getElem?_mapIdx]
  cases w.thr[i]? <;> simp

theorem get_set_self' {w : W} {i : Nat} {x : Thread} (h : w.thr[i]? = some x) (y : Thread) (c : Nat) :
    ((w.set i y).fence i c).thr[i]? = some y := by
  rw [fence_thr]; exact get_set_self h

/-- What a step does to the thread that takes it. -/
theorem act_self {cfg : Cfg} {w w' : W} (k : K cfg w) {i : Nat} {th : Thread} {cpu : Nat} {ch : Ch} {out : Out}
    (hi : w.thr[i]? = some th) (h : stepThread cfg w i th cpu ch = some (w', out)) :
    ∃ th', w'.thr[i]? = some th' ∧ After w ch out (w'.kind th'.pc) (w.kind th.pc) ∧ th'.cpu = th.cpu ∧
      (w.kind th.pc ≠ .cache → th'.ret = th.ret) := by
  have ok := k.thr i th hi
  unfold ThOK at ok
  unfold stepThread at h
  cases hpc : th.pc <;> rw [hpc] at h ok <;> simp only at h ok
  case remote c =>
    obtain ⟨st, hst, hok⟩ := ok
    have hk : w.kind (.remote c) = st.kind c := by simp only [W.kind, hst]
    simp only [hst] at h
    have hc := k.rem c i st hst
    have stok := hc.2.2
    rw [hk]
    -- the thread is still at `remote c`, in stage `st'`
    have stay : ∀ {st' : RStage} {th' : Thread}, w'.thr[i]? = some th' → th'.pc = .remote c → th'.cpu = th.cpu → th'.ret = th.ret →
        w'.rem c = some (i, st') → After w ch out (st'.kind c) (st.kind c) →
        ∃ th', w'.thr[i]? = some th' ∧ After w ch out (w'.kind th'.pc) (st.kind c) ∧ th'.cpu = th.cpu ∧
          (st.kind c ≠ .cache → th'.ret = th.ret) := by
      intro st' th' e1 e2 e3 e4 e5 e6
      exact ⟨th', e1, by rw [e2]; simp only [W.kind, e5]; exact e6, e3, fun _ => e4⟩
    have leave : ∀ {th' : Thread}, w'.thr[i]? = some th' → th'.pc = .idle → th'.cpu = th.cpu → th'.ret = th.ret →
        After w ch out .idle (st.kind c) →
        ∃ th', w'.thr[i]? = some th' ∧ After w ch out (w'.kind th'.pc) (st.kind c) ∧ th'.cpu = th.cpu ∧
          (st.kind c ≠ .cache → th'.ret = th.ret) := by
      intro th' e1 e2 e3 e4 e6
      exact ⟨th', e1, by rw [e2]; exact e6, e3, fun _ => e4⟩
    cases st
    case ready p =>
      cases p
      · simp only [stepBody] at h
        have hop : ∀ {k'}, k' = (match ch.op with
          | 0 => Kind.remote c .none
          | 1 => .remote c .drain
          | 2 => .remote c (.shrink ch.k ch.len)
          | _ => .remote c (.grow ch.k ch.len)) → After w ch .tau k' (RStage.kind c (.ready false)) := by
          intro k' e
          exact ⟨rfl, Or.inl ⟨⟨i, hst⟩, e⟩⟩
        repeat' split at h
        all_goals first
          | (cases h; done)
          | (rename_i e
             injection h with h; injection h with h1 h2; subst h2
             refine stay (by subst h1; exact hi) hpc rfl rfl (by subst h1; exact if_pos rfl) (hop ?_)
             (simp [RStage.kind, e]; done))
          | (rename_i e _
             injection h with h; injection h with h1 h2; subst h2
             refine stay (by subst h1; exact hi) hpc rfl rfl (by subst h1; exact if_pos rfl) (hop ?_)
             simp [RStage.kind, e])
          | (rename_i e1 e2 e3
             injection h with h; injection h with h1 h2; subst h2
             refine stay (by subst h1; exact hi) hpc rfl rfl (by subst h1; exact if_pos rfl) (hop ?_)
             split <;> first | (rename_i e; first | exact absurd e e1 | exact absurd e e2 | exact absurd e e3) | rfl)
      · simp only [stepBody] at h
        split at h
        · injection h with h; injection h with h1 h2; subst h2
          exact stay (by subst h1; exact hi) hpc rfl rfl (by subst h1; exact if_pos rfl) (Or.inl ⟨rfl, rfl⟩)
        · cases h
    case locked p =>
      simp only [stepStop] at h
      have go : ∀ k', k' = (if p then Kind.cache else .remote c .none) → After w ch .tau k' (RStage.kind c (.locked p)) := by
        intro k' e
        cases p
        · exact ⟨rfl, Or.inr ⟨fun o e => (by rw [hst] at e; cases e), Or.inl e⟩⟩
        · exact Or.inl ⟨rfl, e⟩
      split at h
      · injection h with h; injection h with h1 h2; subst h2
        refine leave (th' := { th with pc := .idle }) (by subst h1; exact get_set_self hi) rfl rfl rfl ?_
        cases p
        · exact ⟨rfl, Or.inr ⟨fun o e => (by rw [hst] at e; cases e), Or.inr rfl⟩⟩
        · exact Or.inr ⟨_, rfl, rfl⟩
      · split at h
        · cases h
        · injection h with h; injection h with h1 h2; subst h2
          exact stay (by subst h1; exact hi) hpc rfl rfl (by subst h1; exact if_pos rfl) (go _ rfl)
    case stopping p =>
      simp only [stepStop] at h
      have go : ∀ k', k' = (if p then Kind.cache else .remote c .none) → After w ch .tau k' (RStage.kind c (.stopping p)) := by
        intro k' e
        cases p
        · exact ⟨rfl, Or.inr ⟨fun o e => (by rw [hst] at e; cases e), Or.inl e⟩⟩
        · exact Or.inl ⟨rfl, e⟩
      repeat' split at h
      · injection h with h; injection h with h1 h2; subst h2
        exact stay (th' := { th with vcpu := cpu }) (by subst h1; exact get_set_self hi) hpc rfl rfl (by subst h1; exact if_pos rfl) (go _ rfl)
      · injection h with h; injection h with h1 h2; subst h2
        exact stay (th' := { th with vcpu := cpu, ptr := .none }) (by subst h1; exact get_set_self hi) hpc rfl rfl (by subst h1; exact if_pos rfl) (go _ rfl)
      · injection h with h; injection h with h1 h2; subst h2
        exact stay (th' := { th with vcpu := cpu }) (by subst h1; exact get_set_self' hi _ _) hpc rfl rfl (by subst h1; exact if_pos rfl) (go _ rfl)
    case fencing p todo =>
      simp only [stepStop] at h
      have go : ∀ k', k' = (if p then Kind.cache else .remote c .none) → After w ch .tau k' (RStage.kind c (.fencing p todo)) := by
        intro k' e
        cases p
        · exact ⟨rfl, Or.inr ⟨fun o e => (by rw [hst] at e; cases e), Or.inl e⟩⟩
        · exact Or.inl ⟨rfl, e⟩
      repeat' split at h
      · injection h with h; injection h with h1 h2; subst h2
        exact stay (by subst h1; exact (fence_thr _ _ _).trans hi) hpc rfl rfl (by subst h1; exact if_pos rfl) (go _ rfl)
      · injection h with h; injection h with h1 h2; subst h2
        exact stay (by subst h1; exact hi) hpc rfl rfl (by subst h1; exact if_pos rfl) (go _ rfl)
      · injection h with h; injection h with h1 h2; subst h2
        exact stay (st' := .fencing p todo) (by subst h1; exact hi) hpc rfl rfl (by subst h1; exact hst) (go _ rfl)
    case fin p =>
      simp only [stepStop] at h
      injection h with h; injection h with h1 h2; subst h2
      refine leave (th' := { th with pc := .idle }) (by subst h1; exact get_set_self hi) rfl rfl rfl ?_
      cases p
      · exact ⟨rfl, Or.inr ⟨fun o e => (by rw [hst] at e; cases e), Or.inr rfl⟩⟩
      · exact Or.inr ⟨_, rfl, rfl⟩
    case inited =>
      simp only [stepStop] at h
      split at h
      · injection h with h; injection h with h1 h2; subst h2
        exact stay (by subst h1; exact hi) hpc rfl rfl (by subst h1; exact if_pos rfl) (Or.inl ⟨rfl, rfl⟩)
      · cases h
    case started =>
      simp only [stepStop] at h
      injection h with h; injection h with h1 h2; subst h2
      exact stay (by subst h1; exact hi) hpc rfl rfl (by subst h1; exact if_pos rfl) (Or.inl ⟨rfl, rfl⟩)
    case dr1 a =>
      simp only [stepBody] at h
      repeat' split at h
      all_goals first
        | (cases h; done)
        | (injection h with h; injection h with h1 h2; subst h2
           refine stay (by subst h1; exact hi) hpc rfl rfl (by subst h1; exact if_pos rfl) (Or.inl ⟨rfl, ?_⟩)
           simp [RStage.kind])
    case dr2 a beg hd =>
      simp only [stepBody] at h
      split at h
      · cases h
      · injection h with h; injection h with h1 h2; subst h2
        exact stay (by subst h1; exact hi) hpc rfl rfl (by subst h1; exact if_pos rfl) (Or.inr ⟨_, _, _, rfl, rfl⟩)
    case dr3 a beg =>
      simp only [stepBody] at h
      injection h with h; injection h with h1 h2; subst h2
      exact stay (by subst h1; exact hi) hpc rfl rfl (by subst h1; exact if_pos rfl) (Or.inl ⟨rfl, Or.inl rfl⟩)
    case sh1 a len =>
      simp only [stepBody] at h
      split at h
      · cases h
      · injection h with h; injection h with h1 h2; subst h2
        exact stay (by subst h1; exact hi) hpc rfl rfl (by subst h1; exact if_pos rfl) (Or.inl ⟨rfl, rfl⟩)
    case sh2 a len beg hd =>
      simp only [stepBody] at h
      split at h
      · cases h
      · injection h with h; injection h with h1 h2; subst h2
        refine stay (by subst h1; exact hi) hpc rfl rfl (by subst h1; exact if_pos rfl) (Or.inr (Or.inl ⟨_, ?_, rfl, rfl⟩))
        rw [words_length]
        split
        · have := Nat.mod_le (len - (hd.fin - hd.cur)) 65536; omega
        · omega
    case sh3 a len n hd =>
      simp only [stepBody] at h
      injection h with h; injection h with h1 h2; subst h2
      exact stay (by subst h1; exact hi) hpc rfl rfl (by subst h1; exact if_pos rfl) (Or.inr (Or.inr ⟨_, stok.2.1.2.1, rfl, rfl⟩))
    case go1 a len =>
      simp only [stepBody] at h
      repeat' split at h
      all_goals first
        | (cases h; done)
        | (injection h with h; injection h with h1 h2; subst h2
           exact stay (by subst h1; exact hi) hpc rfl rfl (by subst h1; exact if_pos rfl) (Or.inl ⟨rfl, rfl⟩))
    case go2 a len n hd =>
      simp only [stepBody] at h
      injection h with h; injection h with h1 h2; subst h2
      exact stay (by subst h1; exact hi) hpc rfl rfl (by subst h1; exact if_pos rfl) (Or.inr ⟨_, stok.2.1.2, rfl, rfl⟩)
  case all =>
    obtain ⟨r, hr, -⟩ := ok
    simp only [hr] at h
    cases hp : r.post <;> rw [hp] at h <;> simp only [stepPre, stepPost] at h
    all_goals
      repeat' split at h
      all_goals first
        | (cases h; done)
        | (injection h with h; injection h with h1 h2; subst h1 h2
           refine ⟨th, hi, ?_, rfl, fun _ => rfl⟩
           rw [hpc]
           simp [After, W.kind]
           done)
        | (injection h with h; injection h with h1 h2; subst h1 h2
           refine ⟨_, get_set_self hi, ?_, rfl, fun _ => rfl⟩
           simp [After, W.kind, hpc]
           done)
        | (injection h with h; injection h with h1 h2; subst h1 h2
           refine ⟨th, (fence_thr _ _ _).trans hi, ?_, rfl, fun _ => rfl⟩
           simp [After, W.kind, hpc]
           done)
  case idle =>
    injection h with h; injection h with h1 h2; subst h1 h2
    exact ⟨th, hi, ⟨rfl, by rw [hpc]; rfl⟩, rfl, fun _ => rfl⟩
  case pushB3 a l b c cur m x =>
    simp only [stepPushB] at h
    repeat' split at h
    · cases h
    · injection h with h; injection h with h1 h2; subst h1 h2
      exact ⟨_, get_set_self hi, Or.inl ⟨rfl, rfl⟩, rfl, fun _ => rfl⟩
    · injection h with h; injection h with h1 h2; subst h1 h2
      obtain ⟨-, -, -, -, -, e, -⟩ := ok
      exact ⟨_, get_set_self hi, Or.inr ⟨_, by omega, rfl, rfl⟩, rfl, fun _ => rfl⟩
  case popB3 a n b c cur m got =>
    simp only [stepPopB] at h
    repeat' split at h
    · cases h
    · injection h with h; injection h with h1 h2; subst h1 h2
      exact ⟨_, get_set_self hi, Or.inl ⟨rfl, rfl⟩, rfl, fun _ => rfl⟩
    · injection h with h; injection h with h1 h2; subst h1 h2
      obtain ⟨-, -, -, -, -, e, e', -⟩ := ok
      exact ⟨_, get_set_self hi, Or.inr ⟨_, by omega, rfl, rfl⟩, rfl, fun _ => rfl⟩
  case grow5 a len b hd n =>
    simp only [stepGrow] at h
    injection h with h; injection h with h1 h2; subst h1 h2
    exact ⟨_, get_set_self hi, Or.inr ⟨_, ok.1.2, rfl, rfl⟩, rfl, fun _ => rfl⟩
  case cache9 v =>
    simp only [stepCache] at h
    split at h
    · injection h with h; injection h with h1 h2; subst h1 h2
      refine ⟨_, get_set_self hi, Or.inl ⟨rfl, ?_⟩, rfl, fun _ => rfl⟩
      simp [W.kind, RStage.kind]
    · injection h with h; injection h with h1 h2; subst h1 h2
      exact ⟨th, hi, Or.inl ⟨rfl, by rw [hpc]; rfl⟩, rfl, fun _ => rfl⟩
  all_goals
    simp only [stepPush, stepPop, stepPushB, stepPopB, stepGrow, stepCache] at h
    repeat' split at h
    all_goals first
      | (cases h; done)
      | (injection h with h; injection h with h1 h2; subst h1 h2
         refine ⟨_, get_set_self hi, ?_, rfl, ?_⟩
         · simp [After, W.kind]
         · intro e; first | rfl | exact absurd rfl e)

/-- What a step does to the other threads. -/
theorem act_other {cfg : Cfg} {w w' : W} (k : K cfg w) {i : Nat} {th : Thread} {cpu : Nat} {ch : Ch} {out : Out}
    (hi : w.thr[i]? = some th) (h : stepThread cfg w i th cpu ch = some (w', out)) {j : Nat} (hj : j ≠ i) {tj : Thread}
    (htj : w.thr[j]? = some tj) :
    ∃ tj', w'.thr[j]? = some tj' ∧ w'.kind tj'.pc = w.kind tj.pc ∧ tj'.cpu = tj.cpu ∧ tj'.ret = tj.ret := by
  have hrem : ∀ pc : PC, (pc = tj.pc ∨ pc = tj.pc.restart) → w'.kind pc = w.kind pc := by
    intro pc hpc'
    apply kind_congr
    intro c e
    have e' : tj.pc = .remote c := by
      rcases hpc' with r | r
      · rw [← r, e]
      · rw [e] at r
        cases hp : tj.pc <;> rw [hp] at r <;> simp only [PC.restart, reduceCtorEq] at r
        exact r.symm
    have ok := k.thr j tj htj
    unfold ThOK at ok
    rw [e'] at ok
    obtain ⟨st, hst, -⟩ := ok
    rcases rem_step k hi h c with r | r | ⟨r, -⟩
    · exact r
    · have ok := k.thr i th hi
      unfold ThOK at ok
      rw [r] at ok
      obtain ⟨st', hst', -⟩ := ok
      rw [hst] at hst'
      injection hst' with hst'; injection hst' with e1 e2
      exact absurd e1 hj
    · rw [hst] at r; cases r
  have key : (w'.thr[j]? = some tj) ∨ w'.thr[j]? = some tj.fix := by
    have frame : ∀ w1 : W, w1.thr = w.thr → w1.thr[j]? = some tj := fun w1 e => by rw [e]; exact htj
    have frameS : ∀ (w1 : W) y, w1.thr = w.thr.set i y → w1.thr[j]? = some tj := fun w1 y e => by
      rw [e, List.getElem?_set_ne (Ne.symm hj)]; exact htj
    have frameF : ∀ (w1 w2 : W) c, w1.thr[j]? = some tj → w2.thr = (w1.fence i c).thr →
        (w2.thr[j]? = some tj) ∨ w2.thr[j]? = some tj.fix := by
      intro w1 w2 c e1 e2
      rw [e2]
      simp only [W.fence, List.getElem?_mapIdx, e1, Option.map_some]
      split
      · exact Or.inr rfl
      · exact Or.inl rfl
    have ok := k.thr i th hi
    unfold ThOK at ok
    unfold stepThread at h
    cases hpc : th.pc <;> rw [hpc] at h ok <;> simp only at h ok
    case remote c =>
      obtain ⟨st, hst, hok⟩ := ok
      simp only [hst] at h
      cases st <;> simp only [stepStop, stepBody] at h
      all_goals
        repeat' split at h
        all_goals first
          | (cases h; done)
          | (injection h with h; injection h with h1 h2; subst h1 h2; exact Or.inl (frame _ rfl))
          | (injection h with h; injection h with h1 h2; subst h1 h2; exact Or.inl (frameS _ _ rfl))
          | (injection h with h; injection h with h1 h2; subst h1 h2; exact frameF _ _ _ (frame _ rfl) rfl)
          | (injection h with h; injection h with h1 h2; subst h1 h2; exact frameF _ _ _ (frameS _ _ rfl) rfl)
    case all =>
      obtain ⟨r, hr, -⟩ := ok
      simp only [hr] at h
      cases hp : r.post <;> rw [hp] at h <;> simp only [stepPre, stepPost] at h
      all_goals
        repeat' split at h
        all_goals first
          | (cases h; done)
          | (injection h with h; injection h with h1 h2; subst h1 h2; exact Or.inl (frame _ rfl))
          | (injection h with h; injection h with h1 h2; subst h1 h2; exact Or.inl (frameS _ _ rfl))
          | (injection h with h; injection h with h1 h2; subst h1 h2; exact frameF _ _ _ (frame _ rfl) rfl)
    all_goals
      try simp only [stepPush, stepPop, stepPushB, stepPopB, stepGrow, stepCache] at h
      repeat' split at h
      all_goals first
        | (cases h; done)
        | (injection h with h; injection h with h1 h2; subst h1 h2; exact Or.inl (frameS _ _ rfl))
        | (injection h with h; injection h with h1 h2; subst h1 h2; exact Or.inl (frame _ rfl))
  rcases key with e | e
  · exact ⟨tj, e, hrem _ (Or.inl rfl), rfl, rfl⟩
  · exact ⟨tj.fix, e, (hrem _ (Or.inr rfl)).trans (restart_kind w tj.pc), rfl, rfl⟩

/-- The CPU a thread believes to run on exists. -/
theorem Reach.ret_lt {cfg : Cfg} {w : W} (h : Reach cfg w) (hn : 0 < cfg.n) :
    ∀ (i : Nat) (th : Thread), w.thr[i]? = some th → th.ret < cfg.n ∧ th.vcpu < cfg.n := by
  have set' : ∀ {w1 w2 : W} {i : Nat} {th y : Thread}, (∀ (i : Nat) (th : Thread), w1.thr[i]? = some th → th.ret < cfg.n ∧ th.vcpu < cfg.n) →
      w1.thr[i]? = some th → w2.thr = w1.thr.set i y → (y.ret < cfg.n ∧ y.vcpu < cfg.n) →
      ∀ (i : Nat) (th : Thread), w2.thr[i]? = some th → th.ret < cfg.n ∧ th.vcpu < cfg.n := by
    intro w1 w2 i th y h1 h2 h3 h4 j t hj
    rw [h3, List.getElem?_set] at hj
    split at hj
    · split at hj
      · injection hj with hj; rw [← hj]; exact h4
      · cases hj
    · exact h1 j t hj
  have fence' : ∀ {w1 w2 : W} {i c : Nat}, (∀ (i : Nat) (th : Thread), w1.thr[i]? = some th → th.ret < cfg.n ∧ th.vcpu < cfg.n) →
      w2.thr = (w1.fence i c).thr →
      ∀ (i : Nat) (th : Thread), w2.thr[i]? = some th → th.ret < cfg.n ∧ th.vcpu < cfg.n := by
    intro w1 w2 i c h1 h3 j t hj
    rw [h3] at hj
    simp only [W.fence, List.getElem?_mapIdx] at hj
    cases e : w1.thr[j]? with
    | none => rw [e] at hj; cases hj
    | some t0 =>
      rw [e] at hj
      simp only [Option.map_some, Option.some.injEq] at hj
      have := h1 j t0 e
      split at hj <;> (rw [← hj]; exact this)
  induction h with
  | @init m b caps lim threads w f hi =>
    intro i th hth
    unfold W.init at hi
    rw [f.initSlabs] at hi
    simp only [Option.some.injEq] at hi
    subst hi
    simp only [List.getElem?_replicate] at hth
    split at hth
    · injection hth with hth; rw [← hth]; exact ⟨hn, hn⟩
    · cases hth
  | @step w e w' out r hp hs ih =>
    cases e <;> simp only [Slab.step] at hs
    case act i ch =>
      cases hi : w.thr[i]? with
      | none => rw [hi] at hs; cases hs
      | some th =>
        rw [hi] at hs
        simp only at hs
        cases hc : th.cpu with
        | none => rw [hc] at hs; cases hs
        | some cpu =>
          rw [hc] at hs
          simp only at hs
          have hcn := r.K.cpus i th cpu hi hc
          have h0 := ih i th hi
          have ok := r.K.thr i th hi
          unfold ThOK at ok
          unfold stepThread at hs
          cases hpc : th.pc <;> rw [hpc] at hs ok <;> simp only at hs ok
          case remote c =>
            obtain ⟨st, hst, hok⟩ := ok
            simp only [hst] at hs
            cases st <;> simp only [stepStop, stepBody] at hs
            all_goals
              repeat' split at hs
              all_goals first
                | (cases hs; done)
                | (injection hs with hs; injection hs with h1 h2; subst h1 h2; exact ih)
                | (injection hs with hs; injection hs with h1 h2; subst h1 h2; exact set' ih hi rfl h0)
                | (injection hs with hs; injection hs with h1 h2; subst h1 h2; exact set' ih hi rfl ⟨h0.1, hcn⟩)
                | (injection hs with hs; injection hs with h1 h2; subst h1 h2; exact fence' ih rfl)
                | (injection hs with hs; injection hs with h1 h2; subst h1 h2
                   exact fence' (set' (w2 := w.set i { th with vcpu := cpu }) ih hi rfl ⟨h0.1, hcn⟩) rfl)
          case all =>
            obtain ⟨r, hr, -⟩ := ok
            simp only [hr] at hs
            cases hp : r.post <;> rw [hp] at hs <;> simp only [stepPre, stepPost] at hs
            all_goals
              repeat' split at hs
              all_goals first
                | (cases hs; done)
                | (injection hs with hs; injection hs with h1 h2; subst h1 h2; exact ih)
                | (injection hs with hs; injection hs with h1 h2; subst h1 h2; exact set' ih hi rfl h0)
                | (injection hs with hs; injection hs with h1 h2; subst h1 h2; exact fence' ih rfl)
          all_goals
            try simp only [stepPush, stepPop, stepPushB, stepPopB, stepGrow, stepCache] at hs
            repeat' split at hs
            all_goals first
              | (cases hs; done)
              | (injection hs with hs; injection hs with h1 h2; subst h1 h2; exact ih)
              | (injection hs with hs; injection hs with h1 h2; subst h1 h2; exact set' ih hi rfl h0)
              | (injection hs with hs; injection hs with h1 h2; subst h1 h2; exact set' ih hi rfl ⟨h0.1, hcn⟩)
              | (injection hs with hs; injection hs with h1 h2; subst h1 h2; exact set' ih hi rfl ⟨ok.1, h0.2⟩)
    case call i op =>
      cases hi : w.thr[i]? with
      | none => rw [hi] at hs; cases hs
      | some th =>
        rw [hi] at hs
        injection hs with hs
        have h0 := ih i th hi
        cases op <;> simp only [call] at hs
        case cache =>
          split at hs
          · injection hs with h1 h2; subst h1; exact set' ih hi rfl h0
          · injection hs with h1 h2; subst h1; exact set' ih hi rfl ⟨h0.2, h0.2⟩
        all_goals (injection hs with h1 h2; subst h1; exact set' ih hi rfl h0)
    case schedOut i =>
      cases hi : w.thr[i]? with
      | none => rw [hi] at hs; cases hs
      | some th =>
        rw [hi] at hs
        injection hs with hs; injection hs with h1 h2; subst h1; exact set' ih hi rfl (ih i th hi)
    case schedIn i c =>
      cases hi : w.thr[i]? with
      | none => rw [hi] at hs; cases hs
      | some th =>
        rw [hi] at hs
        injection hs with hs; injection hs with h1 h2; subst h1; exact set' ih hi rfl (ih i th hi)
    case signal i =>
      cases hi : w.thr[i]? with
      | none => rw [hi] at hs; cases hs
      | some th =>
        rw [hi] at hs
        injection hs with hs; injection hs with h1 h2; subst h1; exact set' ih hi rfl (ih i th hi)
    case give k o => injection hs with hs; injection hs with h1 h2; subst h1; exact ih
    case take k o => injection hs with hs; injection hs with h1 h2; subst h1; exact ih

/-- Everything in the system is an object of an existing class. -/
theorem Reach.good {cfg : Cfg} {w : W} (h : Reach cfg w) : ∀ x ∈ w.everything cfg, Valid cfg.nc x.1 ∧ GoodObj x.2 := by
  induction h with
  | @init m b caps lim threads w f hi =>
    rw [init_everything f hi]
    intro x hx; cases hx
  | @step w e w' out r hp hs ih =>
    have hc := conserved w w' r e hp out hs
    cases e
    case give k o =>
      intro x hx
      rw [hc.mem_iff, List.mem_cons] at hx
      rcases hx with rfl | hx
      · exact hp
      · exact ih x hx
    case take k o =>
      intro x hx
      exact ih x (hc.mem_iff.mp (List.mem_cons_of_mem _ hx))
    all_goals
      intro x hx
      exact ih x (hc.mem_iff.mp hx)

theorem Reach.held_good {cfg : Cfg} {w : W} (h : Reach cfg w) : ∀ x ∈ w.held, Valid cfg.nc x.1 ∧ GoodObj x.2 := by
  intro x hx
  refine h.good x ?_
  unfold W.everything
  exact List.mem_append_left _ (List.mem_append_left _ hx)

/-- A `Grow` that had an effect was on the CPU the thread believes to run on. -/
theorem grew_ret {cfg : Cfg} {w w' : W} (k : K cfg w) {i : Nat} {th : Thread} {cpu : Nat} {ch : Ch} {n : Nat}
    (hi : w.thr[i]? = some th) (hcpu : th.cpu = some cpu) (h : stepThread cfg w i th cpu ch = some (w', .grew n)) :
    n = 0 ∨ th.ret = cpu := by
  have ok := k.thr i th hi
  unfold ThOK at ok
  unfold stepThread at h
  cases hpc : th.pc <;> rw [hpc] at h ok <;> simp only at h ok
  case grow5 a len b hd m =>
    right
    rcases ok.2.1 with e | ⟨b, c, e1, g⟩
    · exact absurd e ok.2.2.1
    · have := g.cpu
      rw [hcpu] at this
      injection this with this
      rw [g.ret, this]
  case remote c =>
    obtain ⟨st, hst, hok⟩ := ok
    simp only [hst] at h
    cases st <;> simp only [stepStop, stepBody] at h
    all_goals
      repeat' split at h
      all_goals (first | (cases h; done) | (injection h with h; injection h with h1 h2; split at h2 <;> cases h2))
  case all =>
    obtain ⟨r, hr, -⟩ := ok
    simp only [hr] at h
    cases hp : r.post <;> rw [hp] at h <;> simp only [stepPre, stepPost] at h
    all_goals
      repeat' split at h
      all_goals (cases h; done)
  all_goals
    try simp only [stepPush, stepPop, stepPushB, stepPopB, stepGrow, stepCache] at h
    repeat' split at h
    all_goals first
      | (cases h; done)
      | (injection h with h; injection h with h1 h2; injection h2 with h2; exact Or.inl h2.symm)

end Verif.Slab
