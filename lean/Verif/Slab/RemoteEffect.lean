import Verif.Slab.SeqEffect
/-! What the remote operations do to the cached objects and capacities. -/
namespace Verif.Slab

/-- The operation on CPU `c` has nothing pending. -/
def Plain (w : W) (c : Nat) : Prop :=
  ∀ i st, w.rem c = some (i, st) → (∀ k beg, st ≠ .dr3 k beg) ∧ ∀ k len n h, st ≠ .sh3 k len n h

theorem Plain.none {w : W} {c : Nat} (h : w.rem c = none) : Plain w c := by
  intro i st e; rw [h] at e; cases e

theorem Plain.of {w : W} {c i : Nat} {st : RStage} (h : w.rem c = some (i, st)) (h1 : ∀ k beg, st ≠ .dr3 k beg)
    (h2 : ∀ k len n h, st ≠ .sh3 k len n h) : Plain w c := by
  intro i st e; rw [h] at e; injection e with e; injection e with _ e; subst e; exact ⟨h1, h2⟩

/-- A step that leaves the slabs alone. -/
theorem rem_cells {w w' : W} {c : Nat} (hm : w'.mem = w.mem) (hs : w'.slabs = w.slabs) (hb : w'.begins = w.begins)
    (hp : w'.populated = w.populated) (hr : w'.rs = w.rs) (hrem : ∀ c', c' ≠ c → w'.rem c' = w.rem c') (c' k : Nat)
    (he : c' = c → w'.eff c k = w.eff c k) : At w w' c' k := by
  have hl := left_congr (w := w) (w' := w') (c := c') (k := k) (old_congr (by rw [hp]) hr) (by
    intro ob obeg _; rw [hm]; exact ⟨rfl, fun _ => rfl⟩)
  have hst := stack_congr (w := w) (w' := w') (c := c') (k := k) (by rw [hp]) hs (by rw [hb])
    (fun _ => ?_) (fun _ i _ _ => by rw [hm])
  · exact ⟨hst.1, hst.2, hl.1, hl.2⟩
  · by_cases e : c' = c
    · subst e; exact he rfl
    · exact eff_congr (hrem c' e) hs hb (by rw [hm])

theorem rem_plain {cfg} {w w' : W} {c : Nat} (hm : w'.mem = w.mem) (hs : w'.slabs = w.slabs) (hb : w'.begins = w.begins)
    (hp : w'.populated = w.populated) (hr : w'.rs = w.rs) (hrem : ∀ c', c' ≠ c → w'.rem c' = w.rem c')
    (p : Plain w c) (p' : Plain w' c) : Same cfg w w' :=
  Same.of_at fun c' k _ _ => rem_cells hm hs hb hp hr hrem c' k (fun _ => by
    rw [eff_none p, eff_none p', hm, hs])

theorem setRem_ne {w : W} {i c c' : Nat} {st : RStage} (h : c' ≠ c) : (w.setRem i c st).rem c' = w.rem c' := by
  show (if _ then _ else _) = _
  rw [if_neg h]

theorem setRem_me {w : W} {i c : Nat} {st : RStage} : (w.setRem i c st).rem c = some (i, st) := by
  show (if _ then _ else _) = _
  rw [if_pos rfl]

theorem unlock_same {cfg} {w : W} {i : Nat} {th : Thread} {c : Nat} (p : Plain w c) : Same cfg w (w.unlock i th c) := by
  refine rem_plain (c := c) rfl rfl rfl rfl rfl ?_ p (Plain.none ?_)
  · intro c' h
    show (if _ then _ else _) = _
    rw [if_neg h]
  · show (if _ then _ else _) = _
    rw [if_pos rfl]

theorem stop_effect {cfg} {w w' : W} (k : K cfg w) {i : Nat} {th : Thread} {cpu c : Nat} {st : RStage} {ch : Ch} {out : Out}
    (hrem : w.rem c = some (i, st)) 
    (hp : match st with | .locked .. | .stopping .. | .fencing .. | .inited | .started | .fin .. => True | _ => False)
    (h : stepStop cfg w i th cpu c ch st = some (w', out)) : Effect cfg w w' cpu th out := by
  have ok := (k.rem _ _ _ hrem).2.2
  have pl : Plain w c := by
    refine Plain.of hrem ?_ ?_
    · rintro a b rfl; exact hp
    · rintro a b d e rfl; exact hp
  have same : ∀ {w'' : W} {st'}, w''.mem = w.mem → w''.slabs = w.slabs → w''.begins = w.begins → w''.populated = w.populated →
      w''.rs = w.rs → w''.rem = (w.setRem i c st').rem → (∀ k beg, st' ≠ .dr3 k beg) → (∀ k len n h, st' ≠ .sh3 k len n h) →
      Same cfg w w'' := by
    intro w'' st' a b c' d e f g1 g2
    refine rem_plain a b c' d e ?_ pl (Plain.of (by rw [f]; exact setRem_me) g1 g2)
    intro c'' hne
    rw [f]; exact setRem_ne hne
  cases st <;> try exact absurd hp id
  case locked p =>
    simp only [stepStop] at h
    split at h
    · injection h with h; injection h with h1 h2; subst h1 h2
      cases p <;> exact ⟨unlock_same pl, rfl⟩
    · split at h
      · cases h
      · injection h with h; injection h with h1 h2; subst h1 h2
        exact ⟨same (st' := .stopping p) rfl rfl rfl rfl rfl rfl (by simp) (by simp), rfl⟩
  case stopping p =>
    simp only [stepStop] at h
    split at h
    · injection h with h; injection h with h1 h2; subst h1 h2
      exact ⟨same (st' := .ready p) rfl rfl rfl rfl rfl rfl (by simp) (by simp), rfl⟩
    · split at h
      · injection h with h; injection h with h1 h2; subst h1 h2
        exact ⟨same (st' := .fencing p (List.range cfg.n)) rfl rfl rfl rfl rfl rfl (by simp) (by simp), rfl⟩
      · injection h with h; injection h with h1 h2; subst h1 h2
        exact ⟨same (st' := .ready p) rfl rfl rfl rfl rfl rfl (by simp) (by simp), rfl⟩
  case fencing p todo =>
    simp only [stepStop] at h
    split at h
    · injection h with h; injection h with h1 h2; subst h1 h2
      exact ⟨same (st' := .fencing p (todo.eraseIdx ch.k)) rfl rfl rfl rfl rfl rfl (by simp) (by simp), rfl⟩
    · split at h
      · injection h with h; injection h with h1 h2; subst h1 h2
        exact ⟨same (st' := .ready p) rfl rfl rfl rfl rfl rfl (by simp) (by simp), rfl⟩
      · injection h with h; injection h with h1 h2; subst h1 h2
        exact ⟨fun _ _ _ _ => ⟨rfl, rfl⟩, rfl⟩
  case inited =>
    simp only [stepStop] at h
    split at h
    · injection h with h; injection h with h1 h2; subst h1 h2
      exact ⟨same (st' := .started) rfl rfl rfl rfl rfl rfl (by simp) (by simp), rfl⟩
    · cases h
  case started =>
    obtain ⟨hpop, hf⟩ := ok
    have hcn := (k.rem _ _ _ hrem).1
    simp only [stepStop] at h
    injection h with h; injection h with h1 h2; subst h2
    have fl : w'.mem = w.mem ∧ w'.slabs = w.slabs ∧ w'.begins = w.begins ∧
        (w'.populated = fun c' => if c' = c then true else w.populated c') ∧ w'.rs = w.rs ∧
        w'.rem = (w.setRem i c (.fin true)).rem ∧ w'.held = w.held := by
      subst h1; exact ⟨rfl, rfl, rfl, rfl, rfl, rfl, rfl⟩
    obtain ⟨f1, f2, f3, f4, f5, f6, f7⟩ := fl
    refine ⟨fun c' a hc' ha => ?_, f7⟩
    by_cases e : c' = c
    · subst e
      have hold : w'.old c' a = none := by
        unfold W.old
        rw [f5]
        split
        · rename_i o r hr
          obtain ⟨p, hpo, hun⟩ := allFree_post (k.unlocked_of_rem hrem) hr
          rw [hpo]
          simp only
          have := (((k.rs o r hr).2.post p hpo).2.unl hun).2
          rw [if_neg]
          unfold Post.pending
          rw [decide_eq_true_eq]
          omega
        · rfl
      have hold0 : w.old c' a = none := by
        unfold W.old
        split
        · split
          · rw [if_neg (by rw [hpop]; simp)]
          · rfl
        · rfl
      have pl' : Plain w' c' := Plain.of (by rw [f6]; exact setRem_me) (by simp) (by simp)
      unfold W.cell W.space W.left W.leftCapacity W.stack W.capacity
      rw [hold, hold0, hpop, eff_none pl', f1, f2, f3, f4]
      simp only [if_true, List.nil_append, Nat.zero_add]
      rw [hf.hdr a ha, k.beg a ha]
      simp [Mem.words]
    · have hl := left_congr (w := w) (w' := w') (c := c') (k := a) (old_congr (by rw [f4]; exact if_neg e) f5) (by
        intro ob obeg _; rw [f1]; exact ⟨rfl, fun _ => rfl⟩)
      have hst := stack_congr (w := w) (w' := w') (c := c') (k := a) (by rw [f4]; exact if_neg e) f2 (by rw [f3])
        (fun _ => eff_congr (by rw [f6]; exact setRem_ne e) f2 f3 (by rw [f1])) (fun _ i _ _ => by rw [f1])
      exact (At.mk hst.1 hst.2 hl.1 hl.2).cell
  case fin p =>
    simp only [stepStop] at h
    injection h with h; injection h with h1 h2; subst h1 h2
    cases p <;> exact ⟨unlock_same pl, rfl⟩

theorem body_effect {cfg} {w w' : W} (k : K cfg w) {i : Nat} {th : Thread} {cpu c : Nat} {st : RStage} {ch : Ch} {out : Out}
    (hrem : w.rem c = some (i, st)) 
    (hp : match st with | .locked .. | .stopping .. | .fencing .. | .inited | .started | .fin .. => False | _ => True)
    (h : stepBody cfg w i c ch st = some (w', out)) : Effect cfg w w' cpu th out := by
  have ok := (k.rem _ _ _ hrem).2.2
  have same : ∀ {w'' : W} {st'}, Plain w c → w''.mem = w.mem → w''.slabs = w.slabs → w''.begins = w.begins → w''.populated = w.populated →
      w''.rs = w.rs → w''.rem = (w.setRem i c st').rem → (∀ k beg, st' ≠ .dr3 k beg) → (∀ k len n h, st' ≠ .sh3 k len n h) →
      Same cfg w w'' := by
    intro w'' st' pl a b c' d e f g1 g2
    refine rem_plain a b c' d e ?_ pl (Plain.of (by rw [f]; exact setRem_me) g1 g2)
    intro c'' hne
    rw [f]; exact setRem_ne hne
  cases st <;> try exact absurd hp id
  case ready p =>
    have pl : Plain w c := Plain.of hrem (by simp) (by simp)
    cases p with
    | true =>
      have hpop : w.populated c = false := ok
      simp only [stepBody] at h
      have hstop : w.stopped c = true := k.stops_of hrem
      obtain ⟨m, em, fr, off⟩ := initCpu_spec (m := w.mem) (b := w.slabs) (c := c) k.fit
      rw [hstop, em] at h
      injection h with h; injection h with h1 h2; subst h2
      have fl : w'.mem = m ∧ w'.slabs = w.slabs ∧ w'.begins = w.begins ∧
          w'.populated = w.populated ∧ w'.rs = w.rs ∧
          w'.rem = (w.setRem i c .inited).rem ∧ w'.held = w.held := by
        subst h1; exact ⟨rfl, rfl, rfl, rfl, rfl, rfl, rfl⟩
      obtain ⟨f1, f2, f3, f4, f5, f6, f7⟩ := fl
      refine ⟨Same.of_at fun c' a hc' ha => ?_, f7⟩
      have hl := left_congr (w := w) (w' := w') (c := c') (k := a) (old_congr (by rw [f4]) f5) (by
        intro ob obeg ho; rw [f1]
        have := off ob c' (fun e => k.old_ne ho e.1)
        exact ⟨this.1 a, this.2⟩)
      have hne : w.populated c' = true → c' ≠ c := by
        rintro h rfl; rw [hpop] at h; cases h
      have hst := stack_congr (w := w) (w' := w') (c := c') (k := a) (by rw [f4]) f2 (by rw [f3])
        (fun hpc => eff_congr (by rw [f6]; exact setRem_ne (hne hpc)) f2 f3
          (by rw [f1]; exact (off w.slabs c' (fun e => hne hpc e.2)).1 a))
        (fun hpc i _ _ => by rw [f1]; exact (off w.slabs c' (fun e => hne hpc e.2)).2 i)
      exact ⟨hst.1, hst.2, hl.1, hl.2⟩
    | false =>
      simp only [stepBody] at h
      split at h
      · split at h
        · injection h with h; injection h with h1 h2; subst h1 h2
          exact ⟨same (st' := .fin false) pl rfl rfl rfl rfl rfl rfl (by simp) (by simp), rfl⟩
        · cases h
      · injection h with h; injection h with h1 h2; subst h1 h2
        exact ⟨same (st' := .dr1 1) pl rfl rfl rfl rfl rfl rfl (by simp) (by simp), rfl⟩
      · injection h with h; injection h with h1 h2; subst h1 h2
        exact ⟨same (st' := .sh1 ch.k ch.len) pl rfl rfl rfl rfl rfl rfl (by simp) (by simp), rfl⟩
      · injection h with h; injection h with h1 h2; subst h1 h2
        exact ⟨same (st' := .go1 ch.k ch.len) pl rfl rfl rfl rfl rfl rfl (by simp) (by simp), rfl⟩
  case dr1 a =>
    have pl : Plain w c := Plain.of hrem (by simp) (by simp)
    simp only [stepBody] at h
    split at h
    · injection h with h; injection h with h1 h2; subst h1 h2
      exact ⟨same (st' := .ready false) pl rfl rfl rfl rfl rfl rfl (by simp) (by simp), rfl⟩
    · split at h
      · cases h
      · split at h
        · injection h with h; injection h with h1 h2; subst h1 h2
          exact ⟨same (st' := .dr1 (a + 1)) pl rfl rfl rfl rfl rfl rfl (by simp) (by simp), rfl⟩
        · injection h with h; injection h with h1 h2; subst h1 h2
          exact ⟨same (st' := .dr2 a (w.begins a) (w.mem.hdr w.slabs c a)) pl rfl rfl rfl rfl rfl rfl (by simp) (by simp), rfl⟩
  case dr2 a beg hd =>
    have pl : Plain w c := Plain.of hrem (by simp) (by simp)
    obtain ⟨hpop, ha, rfl, rfl⟩ := ok
    have hcn := (k.rem _ _ _ hrem).1
    simp only [stepBody] at h
    split at h
    · cases h
    · injection h with h; injection h with h1 h2; subst h2
      have fl : w'.mem = w.mem ∧ w'.slabs = w.slabs ∧ w'.begins = w.begins ∧
          w'.populated = w.populated ∧ w'.rs = w.rs ∧
          w'.rem = (w.setRem i c (.dr3 a (w.begins a))).rem ∧
          w'.held = (w.mem.words w.slabs c (w.begins a) ((w.mem.hdr w.slabs c a).cur - w.begins a)).map (fun o => (a, o)) ++ w.held := by
        subst h1; exact ⟨rfl, rfl, rfl, rfl, rfl, rfl, rfl⟩
      obtain ⟨f1, f2, f3, f4, f5, f6, f7⟩ := fl
      have hr' : w'.rem c = some (i, .dr3 a (w.begins a)) := by rw [f6]; exact setRem_me
      have hl := left_congr (w := w) (w' := w') (c := c) (k := a) (old_congr (by rw [f4]) f5) (by
        intro ob obeg _; rw [f1]; exact ⟨rfl, fun _ => rfl⟩)
      have hs1 : w.stack c a = w.mem.words w.slabs c (w.begins a) ((w.mem.hdr w.slabs c a).cur - w.begins a) := by
        unfold W.stack; rw [if_pos hpop, eff_none pl]
      have hs2 : w'.stack c a = [] := by
        unfold W.stack; rw [f4, if_pos hpop, eff_dr3 hr', if_pos rfl, f3]; simp [Mem.words]
      have hc1 : w.capacity c a = (w.mem.hdr w.slabs c a).fin - w.begins a := by
        unfold W.capacity; rw [if_pos hpop, eff_none pl]
      have hc2 : w'.capacity c a = 0 := by
        unfold W.capacity; rw [f4, if_pos hpop, eff_dr3 hr', if_pos rfl, f3]; simp
      refine ⟨⟨hcn, ha⟩, ?_, f7, ⟨w.left c a, [], ?_, ?_⟩, ?_⟩
      · apply SameBut.of_at
        intro c' k' hne
        refine rem_cells f1 f2 f3 f4 f5 (fun c'' h => by rw [f6]; exact setRem_ne h) c' k' ?_
        rintro rfl
        rw [eff_none pl, eff_dr3 hr', if_neg (fun h => hne ⟨rfl, h.symm⟩), f1, f2]
      · unfold W.cell; rw [hs1, List.append_nil]
      · unfold W.cell; rw [hs2, hl.1]
      · unfold W.space; rw [hc1, hc2, hl.2]; omega
  case dr3 a beg =>
    obtain ⟨hpop, ha, rfl⟩ := ok
    have hcn := (k.rem _ _ _ hrem).1
    simp only [stepBody] at h
    injection h with h; injection h with h1 h2; subst h2
    have fl : w'.mem = w.mem.setH w.slabs c a ⟨w.begins a, w.begins a⟩ ∧ w'.slabs = w.slabs ∧ w'.begins = w.begins ∧
        w'.populated = w.populated ∧ w'.rs = w.rs ∧
        w'.rem = (w.setRem i c (.dr1 (a + 1))).rem ∧ w'.held = w.held := by
      subst h1; exact ⟨rfl, rfl, rfl, rfl, rfl, rfl, rfl⟩
    obtain ⟨f1, f2, f3, f4, f5, f6, f7⟩ := fl
    have pl' : Plain w' c := Plain.of (by rw [f6]; exact setRem_me) (by simp) (by simp)
    obtain ⟨q1, q2⟩ := hdr_cells k f1 f2 f3 f4 f5 (fun c'' h => by rw [f6]; exact setRem_ne h) (by
      intro k' hne
      rw [eff_none pl', eff_dr3 hrem, if_neg (fun h => hne h.symm), f1, f2, setH_ne _ _ _ _ _ _ hne])
    refine ⟨fun c' k' hc' hk' => ?_, f7⟩
    by_cases e : c' = c ∧ k' = a
    · obtain ⟨rfl, rfl⟩ := e
      have hst := stack_congr (w := w) (w' := w') (c := c') (k := k') (by rw [f4]) f2 (by rw [f3])
        (fun _ => by rw [eff_none pl', eff_dr3 hrem, if_pos rfl, f1, f2, setH_self]) (fun _ i _ _ => by rw [f1]; rfl)
      exact (At.mk hst.1 hst.2 (q2 c' k').1 (q2 c' k').2).cell
    · exact (q1 c' k' e).cell
  case sh1 a len =>
    have pl : Plain w c := Plain.of hrem (by simp) (by simp)
    simp only [stepBody] at h
    split at h
    · cases h
    · injection h with h; injection h with h1 h2; subst h1 h2
      exact ⟨same (st' := .sh2 a len (w.begins a) (w.mem.hdr w.slabs c a)) pl rfl rfl rfl rfl rfl rfl (by simp) (by simp), rfl⟩
  case sh2 a len beg hd =>
    have pl : Plain w c := Plain.of hrem (by simp) (by simp)
    obtain ⟨hpop, ha, rfl, rfl⟩ := ok
    have hcn := (k.rem _ _ _ hrem).1
    have r := k.reg c hpop
    have hlo := r.lo a ha
    simp only [stepBody] at h
    split at h
    · cases h
    · have hq : (if (w.mem.hdr w.slabs c a).fin - (w.mem.hdr w.slabs c a).cur < len ∧ (w.mem.hdr w.slabs c a).cur ≠ w.begins a then
          min ((len - ((w.mem.hdr w.slabs c a).fin - (w.mem.hdr w.slabs c a).cur)) % 65536) ((w.mem.hdr w.slabs c a).cur - w.begins a)
          else 0) ≤ (w.mem.hdr w.slabs c a).cur - w.begins a := by split <;> omega
      generalize (if (w.mem.hdr w.slabs c a).fin - (w.mem.hdr w.slabs c a).cur < len ∧ (w.mem.hdr w.slabs c a).cur ≠ w.begins a then
          min ((len - ((w.mem.hdr w.slabs c a).fin - (w.mem.hdr w.slabs c a).cur)) % 65536) ((w.mem.hdr w.slabs c a).cur - w.begins a)
          else 0) = q at h hq
      injection h with h; injection h with h1 h2; subst h2
      obtain ⟨n, hn⟩ : ∃ n, n = min (len % 65536) ((w.mem.hdr w.slabs c a).fin - ((w.mem.hdr w.slabs c a).cur - q)) := ⟨_, rfl⟩
      rw [← hn] at h1
      have fl : w'.mem = w.mem ∧ w'.slabs = w.slabs ∧ w'.begins = w.begins ∧
          w'.populated = w.populated ∧ w'.rs = w.rs ∧
          w'.rem = (w.setRem i c (.sh3 a len n ⟨(w.mem.hdr w.slabs c a).cur - q, (w.mem.hdr w.slabs c a).fin - n⟩)).rem ∧
          w'.held = (w.mem.words w.slabs c ((w.mem.hdr w.slabs c a).cur - q) q).map (fun o => (a, o)) ++ w.held := by
        subst h1; exact ⟨rfl, rfl, rfl, rfl, rfl, rfl, rfl⟩
      obtain ⟨f1, f2, f3, f4, f5, f6, f7⟩ := fl
      have hr' : w'.rem c = some (i, .sh3 a len n ⟨(w.mem.hdr w.slabs c a).cur - q, (w.mem.hdr w.slabs c a).fin - n⟩) := by
        rw [f6]; exact setRem_me
      have hl := left_congr (w := w) (w' := w') (c := c) (k := a) (old_congr (by rw [f4]) f5) (by
        intro ob obeg _; rw [f1]; exact ⟨rfl, fun _ => rfl⟩)
      have hs1 : w.stack c a = w.mem.words w.slabs c (w.begins a) ((w.mem.hdr w.slabs c a).cur - w.begins a) := by
        unfold W.stack; rw [if_pos hpop, eff_none pl]
      have hs2 : w'.stack c a = w.mem.words w.slabs c (w.begins a) ((w.mem.hdr w.slabs c a).cur - q - w.begins a) := by
        unfold W.stack; rw [f4, if_pos hpop, eff_sh3 hr', if_pos rfl, f3, f1, f2]
      have hc : w'.capacity c a = w.capacity c a := by
        unfold W.capacity; rw [f4, if_pos hpop, if_pos hpop, eff_sh3 hr', if_pos rfl, eff_none pl, f3, f1, f2]
      refine ⟨⟨hcn, ha⟩, ?_, f7, ⟨w'.cell c a, [], ?_, (List.append_nil _).symm⟩, ?_⟩
      · apply SameBut.of_at
        intro c' k' hne
        refine rem_cells f1 f2 f3 f4 f5 (fun c'' h => by rw [f6]; exact setRem_ne h) c' k' ?_
        rintro rfl
        rw [eff_none pl, eff_sh3 hr', if_neg (fun h => hne ⟨rfl, h.symm⟩), f1, f2]
      · unfold W.cell
        rw [hs1, hs2, hl.1, List.append_nil, List.append_assoc,
          show (w.mem.hdr w.slabs c a).cur - w.begins a = ((w.mem.hdr w.slabs c a).cur - q - w.begins a) + q by omega,
          words_append, show w.begins a + ((w.mem.hdr w.slabs c a).cur - q - w.begins a) = (w.mem.hdr w.slabs c a).cur - q by omega]
      · unfold W.space; rw [hc, hl.2]; rfl
  case sh3 a len n hd =>
    obtain ⟨hpop, ⟨ha, hn, hn'⟩, g1, g2, g3, g4⟩ := ok
    have hcn := (k.rem _ _ _ hrem).1
    simp only [stepBody] at h
    injection h with h; injection h with h1 h2; subst h2
    have fl : w'.mem = w.mem.setH w.slabs c a hd ∧ w'.slabs = w.slabs ∧ w'.begins = w.begins ∧
        w'.populated = w.populated ∧ w'.rs = w.rs ∧
        w'.rem = (w.setRem i c (.ready false)).rem ∧ w'.held = w.held := by
      subst h1; exact ⟨rfl, rfl, rfl, rfl, rfl, rfl, rfl⟩
    obtain ⟨f1, f2, f3, f4, f5, f6, f7⟩ := fl
    have pl' : Plain w' c := Plain.of (by rw [f6]; exact setRem_me) (by simp) (by simp)
    obtain ⟨q1, q2⟩ := hdr_cells k f1 f2 f3 f4 f5 (fun c'' h => by rw [f6]; exact setRem_ne h) (by
      intro k' hne
      rw [eff_none pl', eff_sh3 hrem, if_neg (fun h => hne h.symm), f1, f2, setH_ne _ _ _ _ _ _ hne])
    have hs : w'.stack c a = w.stack c a := by
      unfold W.stack; rw [f4, eff_none pl', eff_sh3 hrem, if_pos rfl, f1, f2, f3, setH_self]; rfl
    have hc1 : w.capacity c a = (w.mem.hdr w.slabs c a).fin - w.begins a := by
      unfold W.capacity; rw [if_pos hpop, eff_sh3 hrem, if_pos rfl]
    have hc2 : w'.capacity c a = hd.fin - w.begins a := by
      unfold W.capacity; rw [f4, if_pos hpop, eff_none pl', f1, f2, f3, setH_self]
    refine ⟨⟨hcn, ha⟩, SameBut.of_at q1, f7, ?_, ?_, i, _, hrem, hn⟩
    · unfold W.cell; rw [hs, (q2 c a).1]
    · unfold W.space; rw [hc1, hc2, (q2 c a).2]; omega
  case go1 a len =>
    have pl : Plain w c := Plain.of hrem (by simp) (by simp)
    simp only [stepBody] at h
    split at h
    · cases h
    · split at h
      · cases h
      · injection h with h; injection h with h1 h2; subst h2
        subst h1
        exact ⟨same (st' := .go2 a len _ _) pl rfl rfl rfl rfl rfl rfl (by simp) (by simp), rfl⟩
  case go2 a len n hd =>
    have pl : Plain w c := Plain.of hrem (by simp) (by simp)
    obtain ⟨hpop, ⟨ha, hn⟩, g⟩ := ok
    have hcn := (k.rem _ _ _ hrem).1
    have r := k.reg c hpop
    have hlo := r.lo a ha
    have hmid := r.mid a ha
    simp only [stepBody] at h
    injection h with h; injection h with h1 h2; subst h2
    have fl : w'.mem = w.mem.setH w.slabs c a hd ∧ w'.slabs = w.slabs ∧ w'.begins = w.begins ∧
        w'.populated = w.populated ∧ w'.rs = w.rs ∧
        w'.rem = (w.setRem i c (.ready false)).rem ∧ w'.held = w.held := by
      subst h1; exact ⟨rfl, rfl, rfl, rfl, rfl, rfl, rfl⟩
    obtain ⟨f1, f2, f3, f4, f5, f6, f7⟩ := fl
    have pl' : Plain w' c := Plain.of (by rw [f6]; exact setRem_me) (by simp) (by simp)
    obtain ⟨q1, q2⟩ := hdr_cells k f1 f2 f3 f4 f5 (fun c'' h => by rw [f6]; exact setRem_ne h) (by
      intro k' hne
      rw [eff_none pl', eff_none pl, f1, f2, setH_ne _ _ _ _ _ _ hne])
    have hs : w'.stack c a = w.stack c a := by
      unfold W.stack; rw [f4, eff_none pl', eff_none pl, f1, f2, f3, setH_self, g.cur]; rfl
    have hc1 : w.capacity c a = (w.mem.hdr w.slabs c a).fin - w.begins a := by
      unfold W.capacity; rw [if_pos hpop, eff_none pl]
    have hc2 : w'.capacity c a = hd.fin - w.begins a := by
      unfold W.capacity; rw [f4, if_pos hpop, eff_none pl', f1, f2, f3, setH_self]
    refine ⟨⟨hcn, ha⟩, SameBut.of_at q1, f7, ?_, ?_, i, _, hrem, hn⟩
    · unfold W.cell; rw [hs, (q2 c a).1]
    · unfold W.space; rw [hc1, hc2, (q2 c a).2, g.fin]; omega

theorem cache_effect {cfg} {w w' : W} {i : Nat} {th : Thread} {cpu : Nat} {pc : PC} {out : Out}
    (h : stepCache cfg.n w i th cpu pc = some (w', out)) : Effect cfg w w' cpu th out := by
  have same : ∀ {w'' : W}, w''.mem = w.mem → w''.slabs = w.slabs → w''.begins = w.begins → w''.populated = w.populated →
      w''.rs = w.rs → w''.rem = w.rem → Same cfg w w'' := fun a b c d e f => same_rfl a b c d e f
  unfold stepCache at h
  split at h
  · injection h with h; injection h with h1 h2; subst h1 h2
    exact ⟨same rfl rfl rfl rfl rfl rfl, rfl⟩
  · split at h
    · injection h with h; injection h with h1 h2; subst h1 h2
      exact ⟨same rfl rfl rfl rfl rfl rfl, rfl⟩
    · cases h
  · injection h with h; injection h with h1 h2; subst h1 h2
    exact ⟨same rfl rfl rfl rfl rfl rfl, rfl⟩
  · split at h
    · injection h with h; injection h with h1 h2; subst h1 h2
      exact ⟨same rfl rfl rfl rfl rfl rfl, rfl⟩
    · injection h with h; injection h with h1 h2; subst h1 h2
      exact ⟨same rfl rfl rfl rfl rfl rfl, rfl⟩
  · injection h with h; injection h with h1 h2; subst h1 h2
    exact ⟨same rfl rfl rfl rfl rfl rfl, rfl⟩
  · split at h
    · injection h with h; injection h with h1 h2; subst h1 h2
      exact ⟨same rfl rfl rfl rfl rfl rfl, rfl⟩
    · injection h with h; injection h with h1 h2; subst h1 h2
      exact ⟨same rfl rfl rfl rfl rfl rfl, rfl⟩
  · split at h
    · injection h with h; injection h with h1 h2; subst h1 h2
      exact ⟨same rfl rfl rfl rfl rfl rfl, rfl⟩
    · injection h with h; injection h with h1 h2; subst h1 h2
      exact ⟨same rfl rfl rfl rfl rfl rfl, rfl⟩
  · split at h
    · injection h with h; injection h with h1 h2; subst h1 h2
      exact ⟨same rfl rfl rfl rfl rfl rfl, rfl⟩
    · injection h with h; injection h with h1 h2; subst h1 h2
      exact ⟨same rfl rfl rfl rfl rfl rfl, rfl⟩
  · rename_i v
    split at h
    · rename_i hc
      injection h with h; injection h with h1 h2; subst h1 h2
      refine ⟨?_, rfl⟩
      refine rem_plain (c := v) rfl rfl rfl rfl rfl ?_ (Plain.none hc.1) (Plain.of (i := i) (st := .locked true) ?_ (by simp) (by simp))
      · intro c' hne
        show (if _ then _ else _) = _
        rw [if_neg hne]
      · show (if _ then _ else _) = _
        rw [if_pos rfl]
    · injection h with h; injection h with h1 h2; subst h1 h2
      exact ⟨same rfl rfl rfl rfl rfl rfl, rfl⟩
  · cases h

end Verif.Slab
