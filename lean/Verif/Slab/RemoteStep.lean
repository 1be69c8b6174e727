import Verif.Slab.Remote
/-! The steps of operations on one CPU preserve the invariant and are defined. -/
namespace Verif.Slab

theorem set_len {w : W} {i : Nat} {th : Thread} : (w.set i th).thr.length = w.thr.length := by simp [W.set]

theorem set_me {w : W} {i : Nat} {th th' : Thread} (hi : w.thr[i]? = some th) : (w.set i th').thr[i]? = some th' := by
  simp only [W.set]; rw [set_get hi, if_pos rfl]

theorem set_ne {w : W} {i : Nat} {th th' : Thread} (hi : w.thr[i]? = some th) {j : Nat} (h : j ≠ i) :
    (w.set i th').thr[j]? = w.thr[j]? := by
  simp only [W.set]; rw [set_get hi, if_neg h]

theorem fence_get (w : W) (i c j : Nat) :
    (w.fence i c).thr[j]? = (w.thr[j]?).map (fun th => if j ≠ i ∧ th.cpu = some c then th.fix else th) := by
  simp [W.fence, List.getElem?_mapIdx]

theorem fence_len (w : W) (i c : Nat) : (w.fence i c).thr.length = w.thr.length := by simp [W.fence]

theorem fence_me {w : W} {i c : Nat} {th : Thread} (h : w.thr[i]? = some th) : (w.fence i c).thr[i]? = some th := by
  rw [fence_get, h]; simp

theorem fence_ne {w : W} {i c j : Nat} {tj : Thread} (hj : j ≠ i) (h : w.thr[j]? = some tj) :
    (w.fence i c).thr[j]? = some tj.fix ∨ ((w.fence i c).thr[j]? = some tj ∧ tj.cpu ≠ some c) := by
  rw [fence_get, h]
  by_cases e : tj.cpu = some c
  · left; simp [hj, e]
  · right; simp [e]

theorem K.stops_of {cfg w} (k : K cfg w) {c i : Nat} {st : RStage} (h : w.rem c = some (i, st)) :
    w.stopped c = st.stops := by
  have hc := (k.rem c i st h).1
  have := k.stop c hc
  cases e : st.stops
  · cases e' : w.stopped c
    · rfl
    · exfalso
      rcases this.1 e' with ⟨a, x, g1, g2⟩ | ⟨a, r, g1, g2⟩
      · rw [h] at g1; cases g1; rw [e] at g2; cases g2
      · exact (k.rs_not_stops (k.unlocked_of_rem h) g1 hc).1 g2
  · exact this.2 (Or.inl ⟨i, st, h, e⟩)

theorem memSame (w : W) (p : Prop) (b c : Nat) : p →
    (∀ k, w.mem.hdr b c k = w.mem.hdr b c k) ∧ ∀ i, w.mem.slot b c i = w.mem.slot b c i :=
  fun _ => ⟨fun _ => rfl, fun _ => rfl⟩

/-- A step that only moves from one stage to the next, with another `held`. -/
theorem K.stage {cfg w} (k : K cfg w) {i : Nat} {th : Thread} {c : Nat} {st st' : RStage} (hi : w.thr[i]? = some th)
    (hrem : w.rem c = some (i, st)) (hpc : th.pc = .remote c) (hs : st'.stops = st.stops) (hp : st'.isPop = st.isPop)
    (hf : st'.fenced c → st.fenced c) (ok : StOK cfg w c st') (h : List (Nat × Nat)) :
    K cfg { w.setRem i c st' with held := h } := by
  refine RStep.K (th' := th) (st' := st') (st := st) ?_ k hi hrem hpc
  exact
    { mem := fun _ _ _ => ⟨fun _ => rfl, fun _ => rfl⟩
      here := Or.inl ⟨fun _ => rfl, fun _ => rfl⟩
      reg := k.reg c
      stok := ok.frame rfl rfl rfl rfl (fun _ => rfl) (fun _ => rfl)
      stopc := by rw [hs]; exact k.stops_of hrem
      me := hi
      pc := hpc
      own := Or.inr ⟨rfl, rfl, Or.inl rfl⟩
      isPop := Or.inl hp
      others := fun j tj _ hj => Or.inr ⟨hj, fun h => Or.inl (hf h)⟩ }

theorem K.stage' {cfg w} (k : K cfg w) {i : Nat} {th : Thread} {c : Nat} {st st' : RStage} (hi : w.thr[i]? = some th)
    (hrem : w.rem c = some (i, st)) (hpc : th.pc = .remote c) (hs : st'.stops = st.stops) (hp : st'.isPop = st.isPop)
    (hf : st'.fenced c → st.fenced c) (ok : StOK cfg w c st') : K cfg (w.setRem i c st') :=
  k.stage hi hrem hpc hs hp hf ok w.held

/-- A step that writes a header of the locked, fenced CPU. -/
theorem K.header {cfg w} (k : K cfg w) {i : Nat} {th : Thread} {c : Nat} {st st' : RStage} (hi : w.thr[i]? = some th)
    (hrem : w.rem c = some (i, st)) (hpc : th.pc = .remote c) (hs : st'.stops = st.stops) (hp : st'.isPop = st.isPop)
    (hf : st.fenced c) {m : Mem}
    (hoff : ∀ b' c', ¬ (b' = w.slabs ∧ c' = c) →
      (∀ k, m.hdr b' c' k = w.mem.hdr b' c' k) ∧ ∀ i, m.slot b' c' i = w.mem.slot b' c' i)
    (hreg : RegOK cfg.nc w.caps w.begins m w.slabs c)
    (ok : StOK cfg { w.setRem i c st' with mem := m } c st') :
    K cfg { w.setRem i c st' with mem := m } := by
  refine RStep.K (th' := th) (st' := st') (st := st) ?_ k hi hrem hpc
  exact
    { mem := hoff
      here := Or.inr hf
      reg := fun _ => hreg
      stok := ok
      stopc := by rw [hs]; exact k.stops_of hrem
      me := hi
      pc := hpc
      own := Or.inr ⟨rfl, rfl, Or.inl rfl⟩
      isPop := Or.inl hp
      others := fun j tj _ hj => Or.inr ⟨hj, fun _ => Or.inl hf⟩ }

theorem K.remote_ptr {cfg w} (k : K cfg w) {i : Nat} {th : Thread} {c : Nat} {st : RStage} (hi : w.thr[i]? = some th)
    (hrem : w.rem c = some (i, st)) (hpc : th.pc = .remote c) :
    if st.isPop then PtrW w i th c else PtrGood w i th := by
  have ok := k.thr i th hi
  unfold ThOK at ok
  rw [hpc] at ok
  simp only at ok
  obtain ⟨st0, h0, h⟩ := ok
  rw [hrem] at h0; cases h0
  exact h

theorem K.unlock {cfg w} (k : K cfg w) {i : Nat} {th : Thread} {c : Nat} {st : RStage} (hi : w.thr[i]? = some th)
    (hrem : w.rem c = some (i, st)) (hpc : th.pc = .remote c) (hs : st.stops = false)
    (hp : st.isPop = true → w.populated c = true) : K cfg (w.unlock i th c) := by
  have hptr := k.remote_ptr hi hrem hpc
  refine k.owner (x := none) (pc := .idle) hi (k.unlocked_of_rem hrem) (k.rem c i st hrem).1 ?_ ?_ ?_ ?_ ?_
  · intro o st0 h; rw [hrem] at h; cases h; exact ⟨rfl, hs⟩
  · intro c' h; rw [hpc] at h; cases h; rfl
  · rw [hpc]; exact fun h => by cases h
  · intro st h; cases h
  · intro w' f1 f2 e1 e2 _
    have nf : ∀ c', NoFence w i c' → NoFence w' i c' := by
      intro c' nf o hf
      by_cases e : c' = c
      · subst e; exact nf o (f1 o hf)
      · exact nf o (f2 c' o e hf)
    show PtrGood w' i _
    split at hptr
    · rename_i e
      rcases hptr with g | ⟨g, g1, g2, g3, g4⟩
      · exact Or.inl g
      · exact Or.inr ⟨_, _, g, g1, e1.symm, by rw [e2]; exact hp e, nf _ g4, g2, g3⟩
    · rcases hptr with g | ⟨b, v, g, gg⟩
      · exact Or.inl g
      · exact Or.inr ⟨b, v, g, gg.cpu, gg.slabs.trans e1.symm, by rw [e2]; exact gg.pop, nf _ gg.nf, gg.vcpu, gg.ret⟩

theorem stop_K {cfg w} (k : K cfg w) {i : Nat} {th : Thread} {cpu c : Nat} {st : RStage} (ch : Ch)
    (hi : w.thr[i]? = some th) (hcpu : th.cpu = some cpu)
    (hrem : w.rem c = some (i, st)) (hpc : th.pc = .remote c)
    (hp : match st with | .locked .. | .stopping .. | .fencing .. | .inited | .started | .fin .. => True | _ => False) :
    ∃ w' out, stepStop cfg w i th cpu c ch st = some (w', out) ∧ K cfg w' := by
  have hst := (k.rem c i st hrem).2.2
  have hcn := (k.rem c i st hrem).1
  have hstop := k.stops_of hrem
  cases st <;> simp only [] at hp
  case locked pop =>
    simp only [stepStop]
    split
    · rename_i e
      exact ⟨_, _, rfl, k.unlock hi hrem hpc rfl (fun h => by
        have : pop = true := h
        rw [e, this])⟩
    · rename_i e
      have : w.stopped c = false := hstop
      rw [if_neg (by rw [this]; simp)]
      refine ⟨_, _, rfl, RStep.K (th' := th) (st' := .stopping pop) (st := .locked pop) ?_ k hi hrem hpc⟩
      exact
        { mem := fun _ _ _ => ⟨fun _ => rfl, fun _ => rfl⟩
          here := Or.inl ⟨fun _ => rfl, fun _ => rfl⟩
          reg := k.reg c
          stok := by
            show w.populated c = !pop
            cases h1 : w.populated c <;> cases pop <;> simp_all
          stopped := fun c' h => by simp only [W.setRem, W.setStopped]; rw [if_neg h]
          stopc := by simp [W.setRem, W.setStopped, RStage.stops]
          me := hi
          pc := hpc
          own := Or.inr ⟨rfl, rfl, Or.inl rfl⟩
          isPop := Or.inl rfl
          others := fun j tj _ hj => Or.inr ⟨hj, fun h => absurd h id⟩ }
  case stopping pop =>
    simp only [stepStop]
    split
    · rename_i e
      subst e
      refine ⟨_, _, rfl, RStep.K (th' := { th with vcpu := cpu }) (st' := .ready pop) (st := .stopping pop) ?_ k hi hrem hpc⟩
      exact
        { mem := fun _ _ _ => ⟨fun _ => rfl, fun _ => rfl⟩
          here := Or.inl ⟨fun _ => rfl, fun _ => rfl⟩
          reg := k.reg _
          stok := hst
          stopc := hstop
          len := set_len
          me := set_me hi
          pc := hpc
          own := Or.inr ⟨rfl, rfl, Or.inr hcpu⟩
          isPop := Or.inl rfl
          others := fun j tj hj h => Or.inr ⟨(set_ne hi hj).trans h, fun _ => Or.inr (fun h' =>
            hj (k.uniq j i tj th cpu h hi h' hcpu))⟩ }
    · split
      · refine ⟨_, _, rfl, RStep.K (th' := { th with vcpu := cpu, ptr := .none })
          (st' := .fencing pop (List.range cfg.n)) (st := .stopping pop) ?_ k hi hrem hpc⟩
        exact
          { mem := fun _ _ _ => ⟨fun _ => rfl, fun _ => rfl⟩
            here := Or.inl ⟨fun _ => rfl, fun _ => rfl⟩
            reg := k.reg c
            stok := hst
            stopc := hstop
            len := set_len
            me := set_me hi
            pc := hpc
            own := Or.inl rfl
            isPop := Or.inl rfl
            others := fun j tj hj h => Or.inr ⟨(set_ne hi hj).trans h, fun h' =>
              absurd (List.mem_range.2 hcn) h'⟩ }
      · refine ⟨_, _, rfl, RStep.K (th' := { th with vcpu := cpu })
          (st' := .ready pop) (st := .stopping pop) ?_ k hi hrem hpc⟩
        exact
          { mem := fun _ _ _ => ⟨fun _ => rfl, fun _ => rfl⟩
            here := Or.inl ⟨fun _ => rfl, fun _ => rfl⟩
            reg := k.reg c
            stok := hst
            stopc := hstop
            len := (fence_len _ _ _).trans set_len
            me := fence_me (set_me hi)
            pc := hpc
            own := Or.inr ⟨rfl, rfl, Or.inr hcpu⟩
            isPop := Or.inl rfl
            others := fun j tj hj h => by
              rcases fence_ne (c := c) hj ((set_ne (th' := { th with vcpu := cpu }) hi hj).trans h) with h' | ⟨h', h''⟩
              · exact Or.inl h'
              · exact Or.inr ⟨h', fun _ => Or.inr h''⟩ }
  case fencing pop todo =>
    simp only [stepStop]
    cases htd : todo[ch.k]? with
    | some c' =>
      simp only
      refine ⟨_, _, rfl, RStep.K (th' := th)
          (st' := .fencing pop (todo.eraseIdx ch.k)) (st := .fencing pop todo) ?_ k hi hrem hpc⟩
      exact
        { mem := fun _ _ _ => ⟨fun _ => rfl, fun _ => rfl⟩
          here := Or.inl ⟨fun _ => rfl, fun _ => rfl⟩
          reg := k.reg c
          stok := hst
          stopc := hstop
          len := fence_len _ _ _
          me := fence_me hi
          pc := hpc
          own := Or.inr ⟨rfl, rfl, Or.inl rfl⟩
          isPop := Or.inl rfl
          others := fun j tj hj h => by
            rcases fence_ne (c := c') hj h with h' | ⟨h', h''⟩
            · exact Or.inl h'
            · refine Or.inr ⟨h', fun hf => ?_⟩
              have hf' : c ∉ todo.eraseIdx ch.k := hf
              by_cases e : c = c'
              · subst e; exact Or.inr h''
              · left
                show c ∉ todo
                intro hm
                apply hf'
                obtain ⟨x, hx⟩ := List.mem_iff_getElem?.1 hm
                rw [List.mem_eraseIdx_iff_getElem?]
                refine ⟨x, ?_, hx⟩
                rintro rfl
                rw [htd] at hx; cases hx; exact e rfl }
    | none =>
      simp only
      split
      · rename_i e
        subst e
        exact ⟨_, _, rfl, k.stage' hi hrem hpc rfl rfl (fun _ => by show c ∉ []; simp) hst⟩
      · exact ⟨_, _, rfl, k⟩
  case inited =>
    simp only [stepStop]
    have : w.stopped c = true := hstop
    rw [if_pos this]
    refine ⟨_, _, rfl, RStep.K (th' := th) (st' := .started) (st := .inited) ?_ k hi hrem hpc⟩
    exact
      { mem := fun _ _ _ => ⟨fun _ => rfl, fun _ => rfl⟩
        here := Or.inl ⟨fun _ => rfl, fun _ => rfl⟩
        reg := k.reg c
        stok := hst
        stopped := fun c' h => by simp only [W.setRem, W.setStopped]; rw [if_neg h]
        stopc := by simp [W.setRem, W.setStopped, RStage.stops]
        me := hi
        pc := hpc
        own := Or.inr ⟨rfl, rfl, Or.inl rfl⟩
        isPop := Or.inl rfl
        others := fun j tj _ hj => Or.inr ⟨hj, fun h => absurd h id⟩ }
  case started =>
    simp only [stepStop]
    refine ⟨_, _, rfl, RStep.K (th' := th) (st' := .fin true) (st := .started) ?_ k hi hrem hpc⟩
    have hfr : w.populated c = false ∧ Fresh cfg.nc w.caps w.mem w.slabs c := hst
    exact
      { mem := fun _ _ _ => ⟨fun _ => rfl, fun _ => rfl⟩
        here := Or.inl ⟨fun _ => rfl, fun _ => rfl⟩
        pop := fun c' h => by show (if c' = c then _ else _) = _; rw [if_neg h]
        popc := fun _ => by simp
        reg := fun _ => hfr.2.reg k.beg
        stok := trivial
        stopc := hstop
        me := hi
        pc := hpc
        own := Or.inr ⟨rfl, rfl, Or.inl rfl⟩
        isPop := Or.inr ⟨rfl, rfl, by simp⟩
        others := fun j tj _ hj => Or.inr ⟨hj, fun h => absurd h id⟩ }
  case fin pop =>
    exact ⟨_, _, rfl, k.unlock hi hrem hpc rfl (fun h => by cases h)⟩

theorem body_K {cfg w} (k : K cfg w) {i : Nat} {th : Thread} {c : Nat} {st : RStage} (ch : Ch)
    (hi : w.thr[i]? = some th) (hrem : w.rem c = some (i, st)) (hpc : th.pc = .remote c)
    (hpre : st = .ready false → 2 ≤ ch.op → Valid cfg.nc ch.k)
    (hp : match st with | .locked .. | .stopping .. | .fencing .. | .inited | .started | .fin .. => False | _ => True) :
    ∃ w' out, stepBody cfg w i c ch st = some (w', out) ∧ K cfg w' := by
  have hst := (k.rem c i st hrem).2.2
  have hcn := (k.rem c i st hrem).1
  have hstop := k.stops_of hrem
  cases st <;> simp only [] at hp
  case ready pop =>
    cases pop
    case true =>
      have hst' : w.populated c = false := hst
      have hs : w.stopped c = true := hstop
      obtain ⟨m, e, fr, ho⟩ := initCpu_spec (m := w.mem) (b := w.slabs) (c := c) k.fit
      simp only [stepBody]
      rw [hs, e]
      simp only
      refine ⟨_, _, rfl, RStep.K (th' := th) (st' := .inited) (st := .ready true) ?_ k hi hrem hpc⟩
      exact
        { mem := ho
          here := Or.inr trivial
          reg := fun h => by rw [show w.populated c = true from h] at hst'; cases hst'
          stok := ⟨hst', fr⟩
          stopc := hstop
          me := hi
          pc := hpc
          own := Or.inr ⟨rfl, rfl, Or.inl rfl⟩
          isPop := Or.inl rfl
          others := fun j tj _ hj => Or.inr ⟨hj, fun _ => Or.inl trivial⟩ }
    case false =>
      have hst' : w.populated c = true := hst
      have hs : w.stopped c = true := hstop
      simp only [stepBody]
      split
      · rw [if_pos hs]
        refine ⟨_, _, rfl, RStep.K (th' := th) (st' := .fin false) (st := .ready false) ?_ k hi hrem hpc⟩
        exact
          { mem := fun _ _ _ => ⟨fun _ => rfl, fun _ => rfl⟩
            here := Or.inl ⟨fun _ => rfl, fun _ => rfl⟩
            reg := k.reg c
            stok := trivial
            stopped := fun c' h => by simp only [W.setRem, W.setStopped]; rw [if_neg h]
            stopc := by simp [W.setRem, W.setStopped, RStage.stops]
            me := hi
            pc := hpc
            own := Or.inr ⟨rfl, rfl, Or.inl rfl⟩
            isPop := Or.inl rfl
            others := fun j tj _ hj => Or.inr ⟨hj, fun h => absurd h id⟩ }
      · exact ⟨_, _, rfl, k.stage' hi hrem hpc rfl rfl (fun _ => trivial) ⟨hst', Nat.le_refl 1⟩⟩
      · rename_i e
        exact ⟨_, _, rfl, k.stage' hi hrem hpc rfl rfl (fun _ => trivial) ⟨hst', hpre rfl (by omega)⟩⟩
      · rename_i e0 e1 e2
        have : 2 ≤ ch.op := by
          have h0 : ch.op ≠ 0 := e0
          have h1 : ch.op ≠ 1 := e1
          omega
        exact ⟨_, _, rfl, k.stage' hi hrem hpc rfl rfl (fun _ => trivial) ⟨hst', hpre rfl this⟩⟩
  case dr1 a =>
    obtain ⟨hpop, ha⟩ := hst
    have hs : w.stopped c = true := hstop
    simp only [stepBody]
    split
    · exact ⟨_, _, rfl, k.stage' hi hrem hpc rfl rfl (fun _ => trivial) (show w.populated c = _ by rw [hpop]; rfl)⟩
    · split
      · exact ⟨_, _, rfl, k.stage' hi hrem hpc rfl rfl (fun _ => trivial) ⟨hpop, by omega⟩⟩
      · exact ⟨_, _, rfl, k.stage' hi hrem hpc rfl rfl (fun _ => trivial) ⟨hpop, ⟨ha, by omega⟩, rfl, rfl⟩⟩
  case dr2 a beg h =>
    obtain ⟨hpop, ha, rfl, rfl⟩ := hst
    have r := k.reg c hpop
    have h1 := r.lo a ha
    have h2 := r.mid a ha
    simp only [stepBody]
    rw [if_neg (by omega)]
    exact ⟨_, _, rfl, k.stage (st' := .dr3 a (w.begins a)) hi hrem hpc rfl rfl (fun _ => trivial) ⟨hpop, ha, rfl⟩ _⟩
  case dr3 a beg =>
    obtain ⟨hpop, ha, rfl⟩ := hst
    have r := k.reg c hpop
    refine ⟨_, _, rfl, k.header (st' := .dr1 (a + 1)) hi hrem hpc rfl rfl trivial (fun b' c' h => setH_off _ _ _ _ _ _ _ h)
      (r.setH ?_ ?_ ?_ ?_) ⟨hpop, by omega⟩⟩
    · exact Nat.le_refl _
    · exact Nat.le_refl _
    · exact Nat.le_add_right _ _
    · intro x h1 h2
      have h2' : x < w.begins a := h2
      omega
  case sh1 a len =>
    obtain ⟨hpop, ha⟩ := hst
    have hs : w.stopped c = true := hstop
    simp only [stepBody]
    rw [if_neg (by rw [hs]; simp)]
    exact ⟨_, _, rfl, k.stage' hi hrem hpc rfl rfl (fun _ => trivial) ⟨hpop, ha, rfl, rfl⟩⟩
  case sh2 a len beg h =>
    obtain ⟨hpop, ha, rfl, rfl⟩ := hst
    have r := k.reg c hpop
    have h1 := r.lo a ha
    have h2 := r.mid a ha
    simp only [stepBody]
    rw [if_neg (by omega)]
    have hq : ∀ q : Nat, q ≤ (w.mem.hdr w.slabs c a).cur - w.begins a → ∀ n : Nat,
        n ≤ (w.mem.hdr w.slabs c a).fin - ((w.mem.hdr w.slabs c a).cur - q) → n ≤ len → ∀ hh,
        K cfg { w.setRem i c (.sh3 a len n ⟨(w.mem.hdr w.slabs c a).cur - q, (w.mem.hdr w.slabs c a).fin - n⟩) with held := hh } := by
      intro q hq n hn hn' hh
      refine k.stage (st' := .sh3 a len n ⟨(w.mem.hdr w.slabs c a).cur - q, (w.mem.hdr w.slabs c a).fin - n⟩) hi hrem hpc rfl rfl
        (fun _ => trivial) ⟨hpop, ⟨ha, hn', ?_⟩, ?_, ?_, ?_, ?_⟩ hh
      · show _ - n + n = _; omega
      · show _ ≤ _ - q; omega
      · show _ - q ≤ _; omega
      · show _ - q ≤ (w.mem.hdr w.slabs c a).fin - n; omega
      · show _ - n ≤ _; omega
    refine ⟨_, _, rfl, hq _ ?_ _ (Nat.min_le_right _ _) (Nat.le_trans (Nat.min_le_left _ _) (Nat.mod_le _ _)) _⟩
    split <;> omega
  case sh3 a len n h =>
    obtain ⟨hpop, ⟨ha, _⟩, h1, h2, h3, h4⟩ := hst
    have r := k.reg c hpop
    have h5 := r.hi a ha
    refine ⟨_, _, rfl, k.header (st' := .ready false) hi hrem hpc rfl rfl trivial (fun b' c' h => setH_off _ _ _ _ _ _ _ h)
      (r.setH h1 h3 (by omega) ?_) (show w.populated c = _ by rw [hpop]; rfl)⟩
    intro x hx1 hx2
    exact r.objs a ha x hx1 (by omega)
  case go1 a len =>
    obtain ⟨hpop, ha⟩ := hst
    have hs : w.stopped c = true := hstop
    have r := k.reg c hpop
    have h5 := r.hi a ha
    have h6 := begins_end k ha
    simp only [stepBody]
    rw [if_neg (show ¬ (¬ w.stopped c = true) by rw [hs]; simp), if_neg (by omega)]
    refine ⟨_, _, rfl, k.stage' hi hrem hpc rfl rfl (fun _ => trivial) ⟨hpop, ⟨ha, Nat.le_trans (Nat.min_le_left _ _) (Nat.mod_le _ _)⟩, rfl, ?_, ?_⟩⟩
    · have := Nat.mod_le (w.caps a + w.begins a - (w.mem.hdr w.slabs c a).fin) 65536
      exact Nat.mod_eq_of_lt (by omega)
    · have := Nat.mod_le (w.caps a + w.begins a - (w.mem.hdr w.slabs c a).fin) 65536
      refine Nat.le_trans (Nat.mod_le _ _) ?_
      omega
  case go2 a len n h =>
    obtain ⟨hpop, ⟨ha, _⟩, g⟩ := hst
    have r := k.reg c hpop
    have h1 := r.lo a ha
    have h2 := r.mid a ha
    refine ⟨_, _, rfl, k.header (st' := .ready false) hi hrem hpc rfl rfl trivial (fun b' c' h => setH_off _ _ _ _ _ _ _ h)
      (r.setH ?_ ?_ g.le ?_) (show w.populated c = _ by rw [hpop]; rfl)⟩
    · rw [g.cur]; exact h1
    · rw [g.cur, g.fin]; omega
    · intro x hx1 hx2
      rw [g.cur] at hx2
      exact r.objs a ha x hx1 hx2

theorem fenced_stops (c : Nat) (st : RStage) (h : st.fenced c) : st.stops = true := by
  cases st <;> simp_all [RStage.fenced, RStage.stops]

/-- A CPU that is not stopped is not fenced. -/
theorem K.fenced_stopped {cfg w} (k : K cfg w) {c o : Nat} (hc : c < cfg.n) (h : FencedBy w c o) : w.stopped c = true := by
  rw [k.stop c hc]
  rcases h with ⟨st, h1, h2⟩ | ⟨r, h1, ⟨⟨l, h2, _⟩, h3⟩⟩
  · exact Or.inl ⟨o, st, h1, fenced_stops c st h2⟩
  · refine Or.inr ⟨o, r, h1, ?_, h3⟩
    rw [(k.rs o r h1).2.todo (by rw [h2]; simp)]
    exact hc

theorem cache_K {cfg w} (k : K cfg w) {i : Nat} {th : Thread} {cpu : Nat} (hi : w.thr[i]? = some th) {pc : PC}
    (hcpu : th.cpu = some cpu) (hpc : th.pc = pc)
    (hp : match pc with
      | .cache1 | .cache2 | .cache3 .. | .cache4 .. | .cache5 .. | .cache6 .. | .cache7 .. | .cache8 .. | .cache9 .. => True
      | _ => False) :
    ∃ w' out, stepCache cfg.n w i th cpu pc = some (w', out) ∧ K cfg w' := by
  have ok := k.thr i th hi
  unfold ThOK at ok
  have n1 : ∀ c, th.pc ≠ .remote c := by intro c e; rw [hpc] at e; subst e; exact hp
  have n2 : th.pc ≠ .all := by intro e; rw [hpc] at e; subst e; exact hp
  have hcn := k.cpus i th cpu hi hcpu
  rw [hpc] at ok
  have loc : ∀ (th' : Thread), th'.cpu = th.cpu → ThOK cfg w i th' → K cfg (w.set i th') := by
    intro th' hc ok'
    exact k.local hi ok' hc (fun e => by rw [hc, hcpu] at e; cases e) (fun c e => absurd e (n1 c)) (fun e => absurd e n2) w.held
  cases pc <;> simp only [] at hp ok
  case cache1 => exact ⟨_, _, rfl, loc _ rfl (show _ = _ ∨ _ = _ from Or.inr rfl)⟩
  case cache2 =>
    simp only [stepCache]
    rw [if_pos hcn]
    refine ⟨_, _, rfl, loc _ rfl (show cpu < cfg.n ∧ (th.ptr = .none ∨ (th.ptr = .mask ∧ th.cpu = some cpu ∧ _)) from ⟨hcn, ?_⟩)⟩
    rcases ok with h | h
    · exact Or.inl h
    · exact Or.inr ⟨h, hcpu, rfl⟩
  case cache3 v => exact ⟨_, _, rfl, k.goto' hi (show _ ∧ _ from ok) n1 n2⟩
  case cache4 v b =>
    obtain ⟨hv, h⟩ := ok
    simp only [stepCache]
    rcases h with h | ⟨h, h1, h2⟩ <;> rw [h]
    · exact ⟨_, _, rfl, k.goto' hi (show True from trivial) n1 n2⟩
    · exact ⟨_, _, rfl, k.goto' hi (show _ ∧ th.ptr = _ ∧ _ ∧ _ from ⟨hv, h, h1, h2⟩) n1 n2⟩
  case cache5 v b =>
    obtain ⟨hv, h, h1, h2⟩ := ok
    exact ⟨_, _, rfl, loc _ rfl (show _ ∧ (_ ∨ _) from ⟨hv, Or.inr ⟨rfl, h1, h2⟩⟩)⟩
  case cache6 v b =>
    obtain ⟨hv, h⟩ := ok
    simp only [stepCache]
    split
    · exact ⟨_, _, rfl, loc _ rfl (show PtrGood w i _ from Or.inl rfl)⟩
    · rename_i hs
      refine ⟨_, _, rfl, k.goto' hi (show _ ∧ (th.ptr = _ ∨ (th.ptr = _ ∧ _ ∧ _ ∧ NoFence w i v)) from ⟨hv, ?_⟩) n1 n2⟩
      rcases h with h | ⟨h, h1, h2⟩
      · exact Or.inl h
      · exact Or.inr ⟨h, h1, h2, fun o hf => absurd (k.fenced_stopped hv hf) hs⟩
  case cache7 v b =>
    obtain ⟨hv, h⟩ := ok
    simp only [stepCache]
    split
    · rename_i e
      subst e
      refine ⟨_, _, rfl, loc _ rfl (show _ ∧ PtrW w i _ v from ⟨hv, ?_⟩)⟩
      rcases h with h | ⟨h, h1, h2, h3⟩
      · exact Or.inl h
      · exact Or.inr ⟨h, h1, h2, rfl, h3⟩
    · exact ⟨_, _, rfl, k.goto' hi (show True from trivial) n1 n2⟩
  case cache8 v =>
    obtain ⟨hv, h⟩ := ok
    simp only [stepCache]
    split
    · rename_i hpop
      refine ⟨_, _, rfl, k.goto' hi (show PtrGood w i _ from ?_) n1 n2⟩
      rcases h with h | ⟨h, h1, h2, h3, h4⟩
      · exact Or.inl h
      · exact Or.inr ⟨_, _, h, h1, rfl, hpop, h4, h2, h3⟩
    · exact ⟨_, _, rfl, k.goto' hi (show _ ∧ PtrW w i _ v from ⟨hv, h⟩) n1 n2⟩
  case cache9 v =>
    obtain ⟨hv, h⟩ := ok
    simp only [stepCache]
    split
    · rename_i e
      refine ⟨_, _, rfl, k.owner (x := some (.locked true)) (pc := .remote v) hi e.2 hv ?_ ?_ n2 ?_ ?_⟩
      · intro o st h; rw [e.1] at h; cases h
      · intro c' h; exact absurd h (n1 c')
      · intro st h; cases h; exact ⟨rfl, rfl, trivial⟩
      · intro w' f1 f2 e1 e2 er
        refine (show ∃ st, _ ∧ _ from ⟨.locked true, er _ rfl, ?_⟩)
        show PtrW w' i _ v
        rcases h with h | ⟨h, h1, h2, h3, h4⟩
        · exact Or.inl h
        · exact Or.inr ⟨by rw [e1]; exact h, h1, h2, h3, fun o hf => h4 o (f1 o hf)⟩
    · exact ⟨_, _, rfl, k⟩

end Verif.Slab
