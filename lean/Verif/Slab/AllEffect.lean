import Verif.Slab.RemoteEffect
/-! What the operations on all CPUs do to the cached objects and capacities. -/
namespace Verif.Slab

theorem old_none {w : W} {c k : Nat} (h : ∀ i r, w.rs = some (i, r) → r.post = none) : w.old c k = none := by
  unfold W.old
  split
  · rename_i i r e; rw [h i r e]
  · rfl

theorem old_post {w : W} {c k i : Nat} {r : RS} {p : Post} (h : w.rs = some (i, r)) (hp : r.post = some p) :
    w.old c k = if w.populated c = true ∧ p.pending c k = true then p.old else none := by
  unfold W.old
  rw [h]
  simp only [hp]

theorem left_none {w : W} {c k : Nat} (h : w.old c k = none) : w.left c k = [] ∧ w.leftCapacity c k = 0 := by
  unfold W.left W.leftCapacity
  rw [h]
  exact ⟨rfl, rfl⟩

theorem left_some {w : W} {c k ob : Nat} {obeg : Nat → Nat} (h : w.old c k = some (ob, obeg)) :
    w.left c k = w.mem.words ob c (obeg k) ((w.mem.hdr ob c k).cur - obeg k) ∧
    w.leftCapacity c k = (w.mem.hdr ob c k).fin - obeg k := by
  unfold W.left W.leftCapacity
  rw [h]
  exact ⟨rfl, rfl⟩

/-- A step of an operation on all CPUs that keeps the current slabs. -/
theorem all_cells {w w' : W} (hs : w'.slabs = w.slabs) (hb : w'.begins = w.begins) (hrem : w'.rem = w.rem)
    (hp : w'.populated = w.populated)
    (hm : ∀ c, (∀ k, w'.mem.hdr w.slabs c k = w.mem.hdr w.slabs c k) ∧ ∀ i, w'.mem.slot w.slabs c i = w.mem.slot w.slabs c i)
    (c k : Nat) : w'.stack c k = w.stack c k ∧ w'.capacity c k = w.capacity c k :=
  stack_congr (by rw [hp]) hs (by rw [hb]) (fun _ => eff_congr (by rw [hrem]) hs hb ((hm c).1 k)) (fun _ i _ _ => (hm c).2 i)

theorem pre_effect {cfg} {w w' : W} (k : K cfg w) {i : Nat} {th : Thread} {cpu : Nat} {r : RS} {ch : Ch} {out : Out}
    (hrs : w.rs = some (i, r)) (hpost : r.post = none)
    (h : stepPre cfg w i th r ch = some (w', out)) : Effect cfg w w' cpu th out := by
  have hrem : ∀ c, w.rem c = none := by
    apply k.excl
    unfold W.allFree
    rw [hrs]
    simp only [hpost]
  have o0 : ∀ c a, w.old c a = none := fun c a => old_none (by
    intro j r' e; rw [hrs] at e; injection e with e; injection e with _ e; subst e; exact hpost)
  have rok := (k.rs i r hrs).2
  -- steps that do not touch the slabs
  have same : ∀ {w'' : W} {r' : RS}, w''.mem = w.mem → w''.slabs = w.slabs → w''.begins = w.begins →
      w''.populated = w.populated → w''.rs = some (i, r') → w''.rem = w.rem → r'.post = none → Same cfg w w'' := by
    intro w'' r' a b c d e f g
    refine Same.of_at fun c' k' _ _ => ?_
    have st := all_cells (w := w) (w' := w'') b c f d (fun _ => by rw [a]; exact ⟨fun _ => rfl, fun _ => rfl⟩) c' k'
    have o1 : w''.old c' k' = none := old_none (by
      intro j r'' e'; rw [e] at e'; injection e' with e'; injection e' with _ e'; subst e'; exact g)
    exact ⟨st.1, st.2, by rw [(left_none o1).1, (left_none (o0 c' k')).1], by rw [(left_none o1).2, (left_none (o0 c' k')).2]⟩
  have id' : Same cfg w w := fun _ _ _ _ => ⟨rfl, rfl⟩
  unfold stepPre at h
  split at h
  · split at h
    · split at h
      · cases h
      · injection h with h; injection h with h1 h2; subst h1 h2
        exact ⟨same (r' := { r with stopd := r.stopd + 1 }) rfl rfl rfl rfl rfl rfl hpost, rfl⟩
    · injection h with h; injection h with h1 h2; subst h1 h2
      exact ⟨id', rfl⟩
  · split at h
    · rename_i nb ncaps lim hpl
      have pk := rok.plan nb ncaps lim hpl hpost
      split at h
      · split at h
        · have hst : w.stopped r.initd = true := by
            have hsd := rok.stopd
            rw [k.stop r.initd (by omega)]
            refine Or.inr ⟨i, r, hrs, by assumption, ?_⟩
            intro p hp; rw [hpost] at hp; cases hp
          obtain ⟨m, em, fr, off⟩ := initCpu_spec (m := w.mem) (b := nb) (c := r.initd) pk.2.1
          rw [hst, em] at h
          injection h with h; injection h with h1 h2; subst h2
          have fl : w'.mem = m ∧ w'.slabs = w.slabs ∧ w'.begins = w.begins ∧ w'.populated = w.populated ∧
              w'.rs = some (i, { r with initd := r.initd + 1 }) ∧ w'.rem = w.rem ∧ w'.held = w.held := by
            subst h1; exact ⟨rfl, rfl, rfl, rfl, rfl, rfl, rfl⟩
          obtain ⟨f1, f2, f3, f4, f5, f6, f7⟩ := fl
          refine ⟨Same.of_at fun c' k' _ _ => ?_, f7⟩
          have st := all_cells (w := w) (w' := w') f2 f3 f6 f4 (fun c => by
            rw [f1]; exact off w.slabs c (fun e => pk.1 e.1.symm)) c' k'
          have o1 : w'.old c' k' = none := old_none (by
            intro j r'' e'; rw [f5] at e'; injection e' with e'; injection e' with _ e'; subst e'; exact hpost)
          exact ⟨st.1, st.2, by rw [(left_none o1).1, (left_none (o0 c' k')).1], by rw [(left_none o1).2, (left_none (o0 c' k')).2]⟩
        · injection h with h; injection h with h1 h2; subst h1 h2
          exact ⟨same (r' := { r with initd := r.initd + 1 }) rfl rfl rfl rfl rfl rfl hpost, rfl⟩
      · injection h with h; injection h with h1 h2; subst h1 h2
        exact ⟨id', rfl⟩
    · injection h with h; injection h with h1 h2; subst h1 h2
      exact ⟨id', rfl⟩
  · split at h
    · injection h with h; injection h with h1 h2; subst h1 h2
      exact ⟨same (r' := { r with todo := some (List.range cfg.n) }) rfl rfl rfl rfl rfl rfl hpost, rfl⟩
    · injection h with h; injection h with h1 h2; subst h1 h2
      exact ⟨id', rfl⟩
  · split at h
    · rename_i todo _
      split at h
      · injection h with h; injection h with h1 h2; subst h1 h2
        exact ⟨same (r' := { r with todo := some (todo.eraseIdx ch.k) }) rfl rfl rfl rfl rfl rfl hpost, rfl⟩
      · injection h with h; injection h with h1 h2; subst h1 h2
        exact ⟨id', rfl⟩
    · injection h with h; injection h with h1 h2; subst h1 h2
      exact ⟨id', rfl⟩
  · split at h
    · split at h
      · rename_i nb ncaps lim hpl
        obtain ⟨pk1, pk2, pk3⟩ := rok.plan nb ncaps lim hpl hpost
        split at h
        · rename_i hin
          rw [pk2.initSlabs] at h
          simp only at h
          injection h with h; injection h with h1 h2; subst h2
          have fl : w'.mem = w.mem ∧ w'.slabs = nb ∧ w'.begins = (fun k => beginOf cfg.nc ncaps k % 65536) ∧
              w'.populated = w.populated ∧
              w'.rs = some (i, { r with post := some ⟨0, some (w.slabs, w.begins), 0, 1, .load, false⟩ }) ∧
              w'.rem = w.rem ∧ w'.held = w.held := by
            subst h1; exact ⟨rfl, rfl, rfl, rfl, rfl, rfl, rfl⟩
          obtain ⟨f1, f2, f3, f4, f5, f6, f7⟩ := fl
          refine ⟨fun c' k' hc' hk' => ?_, f7⟩
          have o1 := old_post (c := c') (k := k') f5 rfl
          have l0 := left_none (o0 c' k')
          have pe : (⟨0, some (w.slabs, w.begins), 0, 1, .load, false⟩ : Post).pending c' k' = true := by
            unfold Post.pending
            rw [decide_eq_true_eq]
            have := hk'.1
            simp only [ne_eq, reduceCtorEq, not_false_eq_true, and_true]
            omega
          rw [pe, f4] at o1
          by_cases hpop : w.populated c' = true
          · rw [if_pos ⟨hpop, rfl⟩] at o1
            have l1 := left_some o1
            have fr := (pk3 c' (by omega) hpop).hdr k' hk'
            have e0 : w.eff c' k' = w.mem.hdr w.slabs c' k' := eff_none (Plain.none (hrem c')) k'
            have e1 : w'.eff c' k' = w'.mem.hdr w'.slabs c' k' := eff_none (Plain.none (by rw [f6]; exact hrem c')) k'
            unfold W.cell W.space W.stack W.capacity
            rw [l0.1, l0.2, l1.1, l1.2, f4, if_pos hpop, if_pos hpop, if_pos hpop, if_pos hpop, e0, e1, f1, f2, fr, f3]
            simp only [pk2.mod hk', Nat.sub_self]
            exact ⟨by simp [Mem.words], by omega⟩
          · rw [if_neg (fun h => hpop h.1)] at o1
            have l1 := left_none o1
            unfold W.cell W.space W.stack W.capacity
            rw [l0.1, l0.2, l1.1, l1.2, f4, if_neg hpop, if_neg hpop, if_neg hpop, if_neg hpop]
            exact ⟨rfl, rfl⟩
        · injection h with h; injection h with h1 h2; subst h1 h2
          exact ⟨id', rfl⟩
      · split at h
        · rename_i hdr
          injection h with h; injection h with h1 h2; subst h2
          have fl : w'.mem = w.mem.zap w.slabs ch.set ch.zh ch.zs ∧ w'.slabs = w.slabs ∧ w'.begins = w.begins ∧
              (w'.populated = fun c => w.populated c && !ch.set c) ∧
              w'.rs = some (i, { r with post := some ⟨0, none, 0, 1, .load, false⟩ }) ∧
              w'.rem = w.rem ∧ w'.held = w.held := by
            subst h1; exact ⟨rfl, rfl, rfl, rfl, rfl, rfl, rfl⟩
          obtain ⟨f1, f2, f3, f4, f5, f6, f7⟩ := fl
          refine ⟨Same.of_at fun c' k' hc' hk' => ?_, f7⟩
          have o1 : w'.old c' k' = none := by
            rw [old_post (c := c') (k := k') f5 rfl]; split <;> rfl
          have l0 := left_none (o0 c' k')
          have l1 := left_none o1
          have e0 : w.eff c' k' = w.mem.hdr w.slabs c' k' := eff_none (Plain.none (hrem c')) k'
          refine ⟨?_, ?_, by rw [l0.1, l1.1], by rw [l0.2, l1.2]⟩
          all_goals
            by_cases hset : ch.set c' = true
            · have hp' : w'.populated c' = false := by rw [f4]; simp [hset]
              by_cases hpop : w.populated c' = true
              · rw [List.all_eq_true] at hdr
                have hd := hdr c' (List.mem_range.mpr hc')
                rw [hset, hpop] at hd
                simp only [Bool.and_true, Bool.not_true, Bool.false_or] at hd
                unfold W.drained at hd
                rw [List.all_eq_true] at hd
                have hd := hd k' (List.mem_range.mpr hk'.2)
                rw [Bool.or_eq_true, decide_eq_true_eq, decide_eq_true_eq] at hd
                have r' := k.reg c' hpop
                have h1 := r'.lo k' hk'
                have h2 := r'.mid k' hk'
                have h3 := begins_pos k hk'
                have := hk'.1
                first | unfold W.stack | unfold W.capacity
                rw [hp', if_neg (by simp), if_pos hpop, e0]
                first
                | (rw [show (w.mem.hdr w.slabs c' k').cur - w.begins k' = 0 by omega]; rfl)
                | omega
              · first | unfold W.stack | unfold W.capacity
                rw [hp', if_neg (by simp), if_neg hpop]
            · have hp' : w'.populated c' = w.populated c' := by rw [f4]; simp [hset]
              have st := stack_congr (w := w) (w' := w') (c := c') (k := k') hp' f2 (by rw [f3])
                (fun _ => eff_congr (by rw [f6]) f2 f3 (by rw [f1]; simp [Mem.zap, hset]))
                (fun _ i _ _ => by rw [f1]; simp [Mem.zap, hset])
              first | exact st.1 | exact st.2
        · injection h with h; injection h with h1 h2; subst h1 h2
          exact ⟨id', rfl⟩
    · injection h with h; injection h with h1 h2; subst h1 h2
      exact ⟨id', rfl⟩

theorem post_effect {cfg} {w w' : W} (k : K cfg w) {i : Nat} {th : Thread} {cpu : Nat} {r : RS} {p : Post} {ch : Ch} {out : Out}
    (hrs : w.rs = some (i, r)) (hpost : r.post = some p)
    (h : stepPost cfg w i th r p ch = some (w', out)) : Effect cfg w w' cpu th out := by
  have pok := ((k.rs i r hrs).2.post p hpost).2
  have o0 : ∀ c a, w.old c a = if w.populated c = true ∧ p.pending c a = true then p.old else none :=
    fun c a => old_post hrs hpost
  -- steps that change only which headers are pending
  have same : ∀ {w'' : W} {p' : Post}, w''.mem = w.mem → w''.slabs = w.slabs → w''.begins = w.begins →
      w''.populated = w.populated → w''.rs = some (i, { r with post := some p' }) → w''.rem = w.rem → p'.old = p.old →
      (∀ c a, c < cfg.n → Valid cfg.nc a → w.populated c = true → p'.pending c a = p.pending c a) → Same cfg w w'' := by
    intro w'' p' a b c d e f g hpe
    refine Same.of_at fun c' k' hc' hk' => ?_
    have st := all_cells (w := w) (w' := w'') b c f d (fun _ => by rw [a]; exact ⟨fun _ => rfl, fun _ => rfl⟩) c' k'
    have o1 : w''.old c' k' = w.old c' k' := by
      rw [old_post (c := c') (k := k') e rfl, o0, d, g]
      by_cases hpop : w.populated c' = true
      · rw [hpe c' k' hc' hk' hpop]
      · rw [if_neg (fun h => hpop h.1), if_neg (fun h => hpop h.1)]
    have hl := left_congr (w := w) (w' := w'') o1 (by
      intro ob obeg _; rw [a]; exact ⟨rfl, fun _ => rfl⟩)
    exact ⟨st.1, st.2, hl.1, hl.2⟩
  unfold stepPost at h
  split at h
  · injection h with h; injection h with h1 h2; subst h1 h2
    exact ⟨same (p' := { p with started := p.started + 1 }) rfl rfl rfl rfl rfl rfl rfl (fun _ _ _ _ _ => rfl), rfl⟩
  · split at h
    · rename_i hold
      injection h with h; injection h with h1 h2; subst h2
      have fl : w'.mem = w.mem ∧ w'.slabs = w.slabs ∧ w'.begins = w.begins ∧ w'.populated = w.populated ∧
          w'.rs = none ∧ w'.rem = w.rem ∧ w'.held = w.held := by
        subst h1; exact ⟨rfl, rfl, rfl, rfl, rfl, rfl, rfl⟩
      obtain ⟨f1, f2, f3, f4, f5, f6, f7⟩ := fl
      refine ⟨Same.of_at fun c' k' _ _ => ?_, f7⟩
      have st := all_cells (w := w) (w' := w') f2 f3 f6 f4 (fun c => by rw [f1]; exact ⟨fun _ => rfl, fun _ => rfl⟩) c' k'
      have o1 : w'.old c' k' = w.old c' k' := by
        rw [o0, old_none (by intro j r' e; rw [f5] at e; cases e), hold]; split <;> rfl
      have hl := left_congr (w := w) (w' := w') o1 (by intro ob obeg _; rw [f1]; exact ⟨rfl, fun _ => rfl⟩)
      exact ⟨st.1, st.2, hl.1, hl.2⟩
    · rename_i ob obeg hold
      have hobne := pok.ne ob obeg hold
      split at h
      · rename_i hoc
        split at h
        · rename_i hnp
          injection h with h; injection h with h1 h2; subst h1 h2
          refine ⟨same (p' := { p with oc := p.oc + 1, ok := 1, st := .load }) rfl rfl rfl rfl rfl rfl rfl ?_, rfl⟩
          intro c a _ ha hpop
          have : c ≠ p.oc := by rintro rfl; exact hnp hpop
          unfold Post.pending
          have := ha.1
          simp only [ne_eq, reduceCtorEq, not_false_eq_true, and_true]
          exact decide_eq_decide.mpr (by omega)
        · rename_i hpo
          have hpo : w.populated p.oc = true := by simpa using hpo
          split at h
          · rename_i hnc
            injection h with h; injection h with h1 h2; subst h1 h2
            refine ⟨same (p' := { p with oc := p.oc + 1, ok := 1, st := .load }) rfl rfl rfl rfl rfl rfl rfl ?_, rfl⟩
            intro c a _ ha hpop
            unfold Post.pending
            have := ha.1
            have := ha.2
            simp only [ne_eq, reduceCtorEq, not_false_eq_true, and_true]
            exact decide_eq_decide.mpr (by omega)
          · rename_i hnc
            have hv : Valid cfg.nc p.ok := ⟨pok.ok, by omega⟩
            have pend : p.st ≠ .store → p.pending p.oc p.ok = true := by
              intro hne
              unfold Post.pending
              rw [decide_eq_true_eq]
              exact Or.inr ⟨rfl, Or.inr ⟨rfl, hne⟩⟩
            split at h
            · rename_i hst
              have hpd := pok.pend ob obeg hold p.oc p.ok hpo hv (pend (by rw [hst]; simp))
              rw [if_neg (by omega)] at h
              injection h with h; injection h with h1 h2; subst h1 h2
              refine ⟨same (p' := { p with st := .hand (w.mem.hdr ob p.oc p.ok) }) rfl rfl rfl rfl rfl rfl rfl ?_, rfl⟩
              intro c a _ ha hpop
              unfold Post.pending
              rw [hst]
              simp
            · rename_i hd hst
              have hpe := pend (by rw [hst]; simp)
              have hpd := pok.pend ob obeg hold p.oc p.ok hpo hv hpe
              have hh := pok.hand ob obeg hd hold hst
              subst hh
              rw [if_neg (by omega)] at h
              injection h with h; injection h with h1 h2; subst h2
              have fl : w'.mem = w.mem ∧ w'.slabs = w.slabs ∧ w'.begins = w.begins ∧ w'.populated = w.populated ∧
                  w'.rs = some (i, { r with post := some { p with st := .store } }) ∧ w'.rem = w.rem ∧
                  w'.held = (w.mem.words ob p.oc (obeg p.ok) ((w.mem.hdr ob p.oc p.ok).cur - obeg p.ok)).map (fun o => (p.ok, o)) ++ w.held := by
                subst h1; exact ⟨rfl, rfl, rfl, rfl, rfl, rfl, rfl⟩
              obtain ⟨f1, f2, f3, f4, f5, f6, f7⟩ := fl
              have st := all_cells (w := w) (w' := w') f2 f3 f6 f4 (fun c => by rw [f1]; exact ⟨fun _ => rfl, fun _ => rfl⟩)
              have l0 := left_some (w := w) (c := p.oc) (k := p.ok) (by rw [o0, if_pos ⟨hpo, hpe⟩]; exact hold)
              have l1 := left_none (w := w') (c := p.oc) (k := p.ok) (by
                rw [old_post f5 rfl, if_neg]
                unfold Post.pending
                simp)
              refine ⟨⟨hoc, hv⟩, ?_, f7, ⟨[], w.stack p.oc p.ok, ?_, ?_⟩, ?_⟩
              · apply SameBut.of_at
                intro c' k' hne
                have o1 : w'.old c' k' = w.old c' k' := by
                  rw [old_post f5 rfl, o0, f4]
                  unfold Post.pending
                  simp only [hst]
                  have e : (p.oc < c' ∨ p.oc = c' ∧ (p.ok < k' ∨ p.ok = k' ∧ OStage.store ≠ OStage.store)) ↔
                      (p.oc < c' ∨ p.oc = c' ∧ (p.ok < k' ∨ p.ok = k' ∧ OStage.hand (w.mem.hdr ob p.oc p.ok) ≠ OStage.store)) := by
                    simp only [ne_eq, reduceCtorEq, not_false_eq_true, and_true, not_true_eq_false, and_false, or_false]
                    constructor
                    · rintro (h | ⟨h1, h2⟩)
                      · exact Or.inl h
                      · exact Or.inr ⟨h1, Or.inl h2⟩
                    · rintro (h | ⟨h1, h2 | h2⟩)
                      · exact Or.inl h
                      · exact Or.inr ⟨h1, h2⟩
                      · exact absurd ⟨h1.symm, h2.symm⟩ hne
                  rw [decide_eq_decide.mpr e]
                have hl := left_congr (w := w) (w' := w') o1 (by intro ob obeg _; rw [f1]; exact ⟨rfl, fun _ => rfl⟩)
                exact ⟨(st c' k').1, (st c' k').2, hl.1, hl.2⟩
              · unfold W.cell; rw [l0.1]; rfl
              · unfold W.cell; rw [l1.1, (st p.oc p.ok).1]
              · unfold W.space; rw [l0.2, l1.2, (st p.oc p.ok).2]; omega
            · rename_i hst
              injection h with h; injection h with h1 h2; subst h2
              have fl : w'.mem = w.mem.setH ob p.oc p.ok ⟨obeg p.ok, obeg p.ok⟩ ∧ w'.slabs = w.slabs ∧ w'.begins = w.begins ∧
                  w'.populated = w.populated ∧
                  w'.rs = some (i, { r with post := some { p with ok := p.ok + 1, st := .load } }) ∧ w'.rem = w.rem ∧
                  w'.held = w.held := by
                subst h1; exact ⟨rfl, rfl, rfl, rfl, rfl, rfl, rfl⟩
              obtain ⟨f1, f2, f3, f4, f5, f6, f7⟩ := fl
              refine ⟨Same.of_at fun c' k' _ _ => ?_, f7⟩
              have st := all_cells (w := w) (w' := w') f2 f3 f6 f4 (fun c => by
                rw [f1]; exact setH_off _ _ _ _ _ _ _ (fun e => hobne e.1.symm)) c' k'
              have pe : ({ p with ok := p.ok + 1, st := .load } : Post).pending c' k' = p.pending c' k' := by
                unfold Post.pending
                simp only [hst, ne_eq, reduceCtorEq, not_false_eq_true, and_true, not_true_eq_false, and_false, or_false]
                exact decide_eq_decide.mpr (by omega)
              have o1 : w'.old c' k' = w.old c' k' := by
                rw [old_post f5 rfl, o0, f4, pe]
              have hl := left_congr (w := w) (w' := w') o1 (by
                intro ob' obeg' ho
                rw [o0] at ho
                split at ho
                · rename_i hc
                  rw [hold] at ho
                  injection ho with ho; injection ho with ho1 ho2
                  subst ho1
                  have hne : ¬ (c' = p.oc ∧ k' = p.ok) := by
                    rintro ⟨rfl, rfl⟩
                    have := hc.2
                    unfold Post.pending at this
                    rw [decide_eq_true_eq, hst] at this
                    simp at this
                  rw [f1]
                  refine ⟨?_, fun _ => rfl⟩
                  show (if _ then _ else _) = _
                  rw [if_neg (fun h => hne h.2)]
                · cases ho)
              exact ⟨st.1, st.2, hl.1, hl.2⟩
      · rename_i hoc
        have np : ∀ c a, c < cfg.n → p.pending c a = true → c = p.oc → False := by
          intro c a hc _ e; omega
        have np' : ∀ c a, c < cfg.n → p.pending c a = false := by
          intro c a hc
          unfold Post.pending
          rw [decide_eq_false_iff_not]
          omega
        split at h
        · injection h with h; injection h with h1 h2; subst h2
          have fl : w'.mem = w.mem.zap ob (fun _ => true) ch.zh ch.zs ∧ w'.slabs = w.slabs ∧ w'.begins = w.begins ∧
              w'.populated = w.populated ∧ w'.rs = none ∧ w'.rem = w.rem ∧ w'.held = w.held := by
            subst h1; exact ⟨rfl, rfl, rfl, rfl, rfl, rfl, rfl⟩
          obtain ⟨f1, f2, f3, f4, f5, f6, f7⟩ := fl
          refine ⟨Same.of_at fun c' k' hc' _ => ?_, f7⟩
          have st := all_cells (w := w) (w' := w') f2 f3 f6 f4 (fun c => by
            rw [f1]; simp [Mem.zap, Ne.symm hobne]) c' k'
          have l1 := left_none (w := w') (c := c') (k := k') (old_none (by intro j r' e; rw [f5] at e; cases e))
          have l0 := left_none (w := w) (c := c') (k := k') (by rw [o0, np' c' k' hc']; simp)
          exact ⟨st.1, st.2, by rw [l0.1, l1.1], by rw [l0.2, l1.2]⟩
        · injection h with h; injection h with h1 h2; subst h1 h2
          exact ⟨same (p' := { p with unlocked := true }) rfl rfl rfl rfl rfl rfl rfl (fun _ _ _ _ _ => rfl), rfl⟩

end Verif.Slab
