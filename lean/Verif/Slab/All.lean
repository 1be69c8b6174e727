import Verif.Slab.RemoteStep
/-! Operations on all CPUs, scheduling, calls: every event preserves the invariant and is defined. -/
namespace Verif.Slab

/-- A step of the owner of the operation on all CPUs (or its start), with every per-CPU lock free of others. -/
structure AStep (cfg : Cfg) (w : W) (i : Nat) (th : Thread) (w' : W) (th' : Thread) (r' : RS) : Prop where
  fit : Fits cfg.nc w'.caps w'.lim
  beg : ∀ k, Valid cfg.nc k → w'.begins k = beginOf cfg.nc w'.caps k
  reg : ∀ c, w'.populated c = true → RegOK cfg.nc w'.caps w'.begins w'.mem w'.slabs c
  pop : ∀ c, w'.populated c = true → w.populated c = true := by exact fun _ h => h
  rem : w'.rem = w.rem := by rfl
  rs : w'.rs = some (i, r')
  rsok : RsOK cfg w' r'
  len : w'.thr.length = w.thr.length := by rfl
  me : w'.thr[i]? = some th'
  cpu : th'.cpu = th.cpu := by rfl
  pc : th'.pc = .all
  off : th'.cpu = none → th'.ptr = .none
  own : if r'.todo = none then PtrGood w' i th' else th'.ptr = .none
  others : ∀ (j : Nat) (tj : Thread), j ≠ i → w.thr[j]? = some tj → w'.thr[j]? = some tj.fix ∨
    (w'.thr[j]? = some tj ∧ ∀ c, tj.cpu = some c → NoFence w j c → Agree w w' j c)
  stop : ∀ c, c < cfg.n → (w'.stopped c = true ↔ r'.stops c)

theorem AStep.K {cfg w i th w' th' r'} (s : AStep cfg w i th w' th' r') (k : K cfg w) (hi : w.thr[i]? = some th)
    (hrem : ∀ c, w.rem c = none) (hown : ∀ o r, w.rs = some (o, r) → o = i) : K cfg w' := by
  have back : ∀ (j : Nat) (tj' : Thread), w'.thr[j]? = some tj' → (j = i ∧ tj' = th') ∨ (j ≠ i ∧ ∃ tj : Thread,
      w.thr[j]? = some tj ∧
      (tj' = tj.fix ∨ (tj' = tj ∧ ∀ c, tj.cpu = some c → NoFence w j c → Agree w w' j c))) := by
    intro j tj' h
    by_cases e : j = i
    · subst e; rw [s.me] at h; cases h; exact Or.inl ⟨rfl, rfl⟩
    · refine Or.inr ⟨e, ?_⟩
      have hl : j < w.thr.length := by
        rw [← s.len]; exact (List.getElem?_eq_some_iff.1 h).1
      have hj : w.thr[j]? = some w.thr[j] := List.getElem?_eq_getElem hl
      refine ⟨_, hj, ?_⟩
      rcases s.others j _ e hj with h' | ⟨h', h''⟩
      · rw [h] at h'; cases h'; exact Or.inl rfl
      · rw [h] at h'; cases h'; exact Or.inr ⟨rfl, h''⟩
  have cpus : ∀ (j : Nat) (tj' : Thread), w'.thr[j]? = some tj' → ∃ tj : Thread, w.thr[j]? = some tj ∧ tj'.cpu = tj.cpu := by
    intro j tj' h
    rcases back j tj' h with ⟨rfl, rfl⟩ | ⟨_, tj, h1, rfl | ⟨rfl, _⟩⟩
    · exact ⟨th, hi, s.cpu⟩
    · exact ⟨tj, h1, rfl⟩
    · exact ⟨_, h1, rfl⟩
  refine ⟨s.fit, s.beg, s.reg, fun c h => k.popn c (s.pop c h), ?_, ?_, ?_, ?_, ?_, ?_, ?_, ?_⟩
  · intro a b ta tb x ha hb ha' hb'
    obtain ⟨t1, e1, c1⟩ := cpus a ta ha
    obtain ⟨t2, e2, c2⟩ := cpus b tb hb
    exact k.uniq a b t1 t2 x e1 e2 (c1 ▸ ha') (c2 ▸ hb')
  · intro a ta x ha ha'
    obtain ⟨t1, e1, c1⟩ := cpus a ta ha
    exact k.cpus a t1 x e1 (c1 ▸ ha')
  · intro j tj' h
    rcases back j tj' h with ⟨rfl, rfl⟩ | ⟨hne, tj, h1, hcase⟩
    · unfold ThOK
      rw [s.pc]
      exact ⟨r', s.rs, s.own⟩
    · have nr : ∀ c', tj.pc ≠ .remote c' := by
        intro c' h2
        have ok := k.thr j tj h1
        unfold ThOK at ok
        rw [h2] at ok
        simp only at ok
        obtain ⟨st0, h0, _⟩ := ok
        rw [hrem] at h0; cases h0
      have na : tj.pc ≠ .all := by
        intro h2
        have ok := k.thr j tj h1
        unfold ThOK at ok
        rw [h2] at ok
        simp only at ok
        obtain ⟨r0, h0, _⟩ := ok
        exact hne (hown _ _ h0)
      rcases hcase with rfl | ⟨rfl, ha⟩
      · exact (k.thr j tj h1).fixed rfl rfl (fun c' h2 => absurd h2 (nr c')) (fun h2 => absurd h2 na)
      · exact (k.thr j _ h1).frame ha (fun c' h2 => absurd h2 (nr c')) (fun h2 => absurd h2 na)
  · intro j tj' h hoff
    rcases back j tj' h with ⟨rfl, rfl⟩ | ⟨_, tj, h1, rfl | ⟨rfl, _⟩⟩
    · exact s.off hoff
    · rfl
    · exact k.off j _ h1 hoff
  · intro c' a x e
    rw [s.rem, hrem] at e; cases e
  · intro a r e
    rw [s.rs] at e
    cases e
    exact ⟨⟨th', s.me, s.pc⟩, s.rsok⟩
  · intro _ c
    rw [s.rem, hrem]
  · intro c' hc'
    rw [s.stop c' hc']
    constructor
    · intro h; exact Or.inr ⟨i, r', s.rs, h⟩
    · rintro (⟨a, x, g1, g2⟩ | ⟨a, r, g1, g2⟩)
      · rw [s.rem, hrem] at g1; cases g1
      · rw [s.rs] at g1; cases g1; exact g2

theorem K.all_ptr {cfg w} (k : K cfg w) {i : Nat} {th : Thread} {r : RS} (hi : w.thr[i]? = some th)
    (hrs : w.rs = some (i, r)) (hpc : th.pc = .all) :
    if r.todo = none then PtrGood w i th else th.ptr = .none := by
  have ok := k.thr i th hi
  unfold ThOK at ok
  rw [hpc] at ok
  simp only at ok
  obtain ⟨r0, h0, h⟩ := ok
  rw [hrs] at h0; cases h0
  exact h

/-- The owner of all locks keeps its pointer as long as nothing it points to changes. -/
theorem PtrGood.owner {w w' : W} {i : Nat} {th th' : Thread} {r' : RS} (g : PtrGood w i th) (hs : w'.slabs = w.slabs)
    (hp : ∀ c, w.populated c = true → w'.populated c = true) (hr : ∀ c, w'.rem c = none) (hrs : w'.rs = some (i, r'))
    (e1 : th'.ptr = th.ptr) (e2 : th'.cpu = th.cpu) (e3 : th'.vcpu = th.vcpu) (e4 : th'.ret = th.ret) :
    PtrGood w' i th' := by
  rcases g with g | ⟨b, c, h, g⟩
  · exact Or.inl (e1.trans g)
  · refine Or.inr ⟨b, c, e1.trans h, e2.trans g.cpu, g.slabs.trans hs.symm, hp c g.pop, ?_, e3.trans g.vcpu, e4.trans g.ret⟩
    intro o hf
    rcases hf with ⟨st, h1, _⟩ | ⟨r, h1, _⟩
    · rw [hr] at h1; cases h1
    · rw [hrs] at h1; cases h1; rfl

theorem K.stop_rs {cfg w} (k : K cfg w) {i : Nat} {r : RS} (hrs : w.rs = some (i, r)) (hrem : ∀ c, w.rem c = none)
    {c : Nat} (hc : c < cfg.n) : w.stopped c = true ↔ r.stops c := by
  rw [k.stop c hc]
  constructor
  · rintro (⟨a, x, g1, _⟩ | ⟨a, r', g1, g2⟩)
    · rw [hrem] at g1; cases g1
    · rw [hrs] at g1; cases g1; exact g2
  · intro h; exact Or.inr ⟨i, r, hrs, h⟩

theorem noFence_rs {w w' : W} {i j c : Nat} {r r' : RS} (hrem : ∀ c, w'.rem c = none) (hrs : w.rs = some (i, r))
    (hrs' : w'.rs = some (i, r')) (h : r'.fenced c → r.fenced c) (nf : NoFence w j c) : NoFence w' j c := by
  intro o hf
  rcases hf with ⟨st, h1, _⟩ | ⟨x, h1, h2⟩
  · rw [hrem] at h1; cases h1
  · rw [hrs'] at h1; cases h1
    exact nf _ (Or.inr ⟨r, hrs, h h2⟩)

theorem pre_K {cfg w} (k : K cfg w) {i : Nat} {th : Thread} {r : RS} (ch : Ch) (hi : w.thr[i]? = some th)
    (hrs : w.rs = some (i, r)) (hpc : th.pc = .all) (hpost : r.post = none) :
    ∃ w' out, stepPre cfg w i th r ch = some (w', out) ∧ K cfg w' := by
  have hfree : w.allFree = false := by unfold W.allFree; rw [hrs]; simp [hpost]
  have hrem := k.excl hfree
  have hown : ∀ o r, w.rs = some (o, r) → o = i := by intro o r h; rw [hrs] at h; cases h; rfl
  have rok := (k.rs i r hrs).2
  have hptr := k.all_ptr hi hrs hpc
  have hstop := fun (c : Nat) (hc : c < cfg.n) => k.stop_rs hrs hrem hc
  have hoff : th.cpu = none → th.ptr = .none := k.off i th hi
  -- nobody but the owner has a usable pointer once all CPUs are fenced
  have allf : r.todo = some [] → ∀ j c, j ≠ i → NoFence w j c → False := by
    intro ht j c hj nf
    exact hj (nf i (Or.inr ⟨r, hrs, ⟨[], ht, by simp⟩, fun p hp => by rw [hpost] at hp; cases hp⟩)).symm
  unfold stepPre
  split
  · -- stop the next CPU
    split
    · rename_i hlt
      have hns : ¬ w.stopped r.stopd = true := by
        rw [hstop _ hlt]; rintro ⟨h, _⟩; omega
      rw [if_neg hns]
      have ht : r.todo = none := by
        cases h : r.todo with
        | none => rfl
        | some l => have := rok.todo (by rw [h]; simp); omega
      refine ⟨_, _, rfl, AStep.K (th := th) (th' := th) (r' := { r with stopd := r.stopd + 1 }) ?_ k hi hrem hown⟩
      refine
        { fit := k.fit
          beg := k.beg
          reg := k.reg
          rs := rfl
          rsok := ⟨hlt, fun nb ncaps lim h => Nat.le_succ_of_le (rok.initd nb ncaps lim h), fun h => absurd ht h, rok.plan,
            fun p h => by rw [show ({ r with stopd := r.stopd + 1 } : RS).post = r.post from rfl, hpost] at h; cases h⟩
          me := hi
          pc := hpc
          off := hoff
          own := ?_
          others := ?_
          stop := ?_ }
      · rw [if_pos ht]
        rw [if_pos ht] at hptr
        exact hptr.owner rfl (fun _ h => h) hrem rfl rfl rfl rfl rfl
      · intro j tj hj h
        refine Or.inr ⟨h, fun c hc nf => ⟨rfl, rfl, rfl, id, ?_, fun _ => rfl, fun _ => rfl⟩⟩
        exact noFence_rs hrem hrs rfl id nf
      · intro c hc
        simp only [W.setRS, W.setStopped, RS.stops]
        split
        · rename_i e; subst e
          simp only [true_iff]
          exact ⟨by omega, fun p h => by rw [hpost] at h; cases h⟩
        · rw [hstop c hc]
          unfold RS.stops
          constructor
          · rintro ⟨h1, h2⟩; exact ⟨by omega, h2⟩
          · rintro ⟨h1, h2⟩; exact ⟨by omega, h2⟩
    · exact ⟨_, _, rfl, k⟩
  · -- initialise the next region
    cases hpl : r.plan with
    | none => exact ⟨_, _, rfl, k⟩
    | some pl =>
      obtain ⟨nb, ncaps, lim⟩ := pl
      simp only
      obtain ⟨g1, g2, g3⟩ := rok.plan nb ncaps lim hpl hpost
      split
      · rename_i hlt
        have hle := rok.stopd
        have gen : ∀ m : Mem, (∀ b' c', ¬ (b' = nb ∧ c' = r.initd) → (∀ k, m.hdr b' c' k = w.mem.hdr b' c' k) ∧
            ∀ i, m.slot b' c' i = w.mem.slot b' c' i) → (w.populated r.initd = true → Fresh cfg.nc ncaps m nb r.initd) →
            K cfg { w.setRS i { r with initd := r.initd + 1 } with mem := m } := by
          intro m ho hfr
          have hsl : ∀ c, (∀ k, m.hdr w.slabs c k = w.mem.hdr w.slabs c k) ∧ ∀ i, m.slot w.slabs c i = w.mem.slot w.slabs c i :=
            fun c => ho w.slabs c (by rintro ⟨h, _⟩; exact g1 h.symm)
          refine AStep.K (th := th) (th' := th) (r' := { r with initd := r.initd + 1 }) ?_ k hi hrem hown
          refine
            { fit := k.fit
              beg := k.beg
              reg := ?_
              rs := rfl
              rsok := ⟨rok.stopd, fun _ _ _ _ => hlt, rok.todo, ?_,
                fun p h => by rw [show ({ r with initd := r.initd + 1 } : RS).post = r.post from rfl, hpost] at h; cases h⟩
              me := hi
              pc := hpc
              off := hoff
              own := ?_
              others := ?_
              stop := hstop }
          · intro c hc
            have rg := k.reg c hc
            exact ⟨fun k hk => by show _ ≤ (m.hdr w.slabs c k).cur; rw [(hsl c).1]; exact rg.lo k hk,
              fun k hk => by show (m.hdr w.slabs c k).cur ≤ (m.hdr w.slabs c k).fin; rw [(hsl c).1]; exact rg.mid k hk,
              fun k hk => by show (m.hdr w.slabs c k).fin ≤ _; rw [(hsl c).1]; exact rg.hi k hk,
              fun k hk => by show m.slot w.slabs c _ % 2 = 1; rw [(hsl c).2]; exact rg.mark k hk,
              fun k hk x hx hx' => by
                show GoodObj (m.slot w.slabs c x)
                rw [(hsl c).2]
                exact rg.objs k hk x hx (by have h' : x < (m.hdr w.slabs c k).cur := hx'; rw [(hsl c).1] at h'; exact h')⟩
          · intro nb' ncaps' lim' h h'
            rw [show ({ r with initd := r.initd + 1 } : RS).plan = r.plan from rfl, hpl] at h
            cases h
            refine ⟨g1, g2, fun c hc hp => ?_⟩
            have hc' : c < r.initd + 1 := hc
            by_cases e : c = r.initd
            · subst e; exact hfr hp
            · have f := g3 c (by omega) hp
              have ho' := ho nb c (by rintro ⟨_, h⟩; exact e h)
              exact ⟨fun k hk => by show m.hdr nb c k = _; rw [ho'.1]; exact f.hdr k hk,
                fun k hk => by show m.slot nb c _ % 2 = 1; rw [ho'.2]; exact f.mark k hk⟩
          · show if r.todo = none then _ else _
            split
            · rename_i ht
              rw [if_pos ht] at hptr
              exact hptr.owner rfl (fun _ h => h) hrem rfl rfl rfl rfl rfl
            · rename_i ht
              rw [if_neg ht] at hptr
              exact hptr
          · intro j tj hj h
            refine Or.inr ⟨h, fun c hc nf => ⟨rfl, rfl, rfl, id, ?_, (hsl c).1, (hsl c).2⟩⟩
            exact noFence_rs hrem hrs rfl id nf
        split
        · rename_i hpop
          have hst : w.stopped r.initd = true := by
            rw [hstop _ (by omega)]
            exact ⟨hlt, fun p h => by rw [hpost] at h; cases h⟩
          obtain ⟨m, e, fr, ho⟩ := initCpu_spec (m := w.mem) (b := nb) (c := r.initd) g2
          rw [hst, e]
          exact ⟨_, _, rfl, by have := gen m ho (fun _ => fr); rw [hpl] at this; exact this⟩
        · rename_i hpop
          exact ⟨_, _, rfl, by
            have := gen w.mem (fun _ _ _ => ⟨fun _ => rfl, fun _ => rfl⟩) (fun h => absurd h hpop)
            rw [hpl] at this; exact this⟩
      · exact ⟨_, _, rfl, k⟩
  · -- start the fence
    split
    · rename_i e
      refine ⟨_, _, rfl, AStep.K (th := th) (th' := { th with ptr := .none })
        (r' := { r with todo := some (List.range cfg.n) }) ?_ k hi hrem hown⟩
      exact
        { fit := k.fit
          beg := k.beg
          reg := k.reg
          rs := rfl
          rsok := ⟨rok.stopd, rok.initd, fun _ => e.1, rok.plan,
            fun p h => by rw [show ({ r with todo := some (List.range cfg.n) } : RS).post = r.post from rfl, hpost] at h; cases h⟩
          len := set_len
          me := set_me hi
          pc := hpc
          off := fun _ => rfl
          own := by simp
          others := fun j tj hj h => Or.inr ⟨(set_ne hi hj).trans h, fun c hc nf =>
            ⟨rfl, rfl, rfl, id, noFence_rs hrem hrs rfl (fun hf => by
              obtain ⟨⟨l, h1, h2⟩, _⟩ := hf
              have h1' : some (List.range cfg.n) = some l := h1
              cases h1'
              exact absurd (List.mem_range.2 (k.cpus j tj c h hc)) h2) nf, fun _ => rfl, fun _ => rfl⟩⟩
          stop := hstop }
    · exact ⟨_, _, rfl, k⟩
  · -- one CPU is fenced
    cases ht : r.todo with
    | none => exact ⟨_, _, rfl, k⟩
    | some todo =>
      simp only
      cases htd : todo[ch.k]? with
      | none => exact ⟨_, _, rfl, k⟩
      | some c' =>
        simp only
        rw [if_neg (by rw [ht]; simp)] at hptr
        refine ⟨_, _, rfl, AStep.K (th := th) (th' := th)
          (r' := { r with todo := some (todo.eraseIdx ch.k) }) ?_ k hi hrem hown⟩
        refine
          { fit := k.fit
            beg := k.beg
            reg := k.reg
            rs := rfl
            rsok := ⟨rok.stopd, rok.initd, fun _ => rok.todo (by rw [ht]; simp), rok.plan,
              fun p h => by
                rw [show ({ r with todo := some (todo.eraseIdx ch.k) } : RS).post = r.post from rfl, hpost] at h; cases h⟩
            len := fence_len _ _ _
            me := fence_me hi
            pc := hpc
            off := fun _ => hptr
            own := by simpa using hptr
            others := ?_
            stop := hstop }
        intro j tj hj h
        rcases fence_ne (c := c') hj h with h' | ⟨h', h''⟩
        · exact Or.inl h'
        · refine Or.inr ⟨h', fun c hc nf => ⟨rfl, rfl, rfl, id, noFence_rs hrem hrs rfl (fun hf => ?_) nf, fun _ => rfl, fun _ => rfl⟩⟩
          obtain ⟨⟨l, h1, h2⟩, h3⟩ := hf
          have h1' : some (todo.eraseIdx ch.k) = some l := h1
          cases h1'
          refine ⟨⟨todo, ht, ?_⟩, h3⟩
          intro hm
          apply h2
          obtain ⟨x, hx⟩ := List.mem_iff_getElem?.1 hm
          rw [List.mem_eraseIdx_iff_getElem?]
          refine ⟨x, ?_, hx⟩
          rintro rfl
          rw [htd] at hx; cases hx
          exact h'' hc
  · -- the switch
    split
    · rename_i ht
      rw [if_neg (by rw [ht]; simp)] at hptr
      cases hpl : r.plan with
      | some pl =>
        obtain ⟨nb, ncaps, lim⟩ := pl
        simp only
        obtain ⟨g1, g2, g3⟩ := rok.plan nb ncaps lim hpl hpost
        split
        · rename_i hin
          rw [g2.initSlabs]
          simp only
          have hbeg : ∀ a, Valid cfg.nc a → beginOf cfg.nc ncaps a % 65536 = beginOf cfg.nc ncaps a :=
            fun a ha => g2.mod ha
          refine ⟨_, _, rfl, AStep.K (th := th) (th' := th)
            (r' := { r with post := some ⟨0, some (w.slabs, w.begins), 0, 1, .load, false⟩ }) ?_ k hi hrem hown⟩
          refine
            { fit := g2
              beg := hbeg
              reg := fun c hc => (g3 c (by rw [hin]; exact k.popn c hc) hc).reg hbeg
              rs := by rw [hpl]
              rsok := ⟨rok.stopd, rok.initd, rok.todo, fun _ _ _ _ h => (by cases h), ?_⟩
              me := hi
              pc := hpc
              off := fun _ => hptr
              own := by rw [show ({ r with post := some ⟨0, some (w.slabs, w.begins), 0, 1, .load, false⟩ } : RS).todo = r.todo from rfl, ht]; simpa using hptr
              others := fun j tj hj h => Or.inr ⟨h, fun c hc nf => (allf ht j c hj nf).elim⟩
              stop := ?_ }
          · intro p hp
            have hp' : some (⟨0, some (w.slabs, w.begins), 0, 1, .load, false⟩ : Post) = some p := hp
            cases hp'
            refine ⟨ht, Nat.zero_le _, Nat.le_refl _, ?_, ?_, ?_, ?_⟩
            · intro ob obeg h; cases h; exact fun h => g1 h.symm
            · intro ob obeg h c a hc ha _
              cases h
              have rg := k.reg c hc
              have := begins_pos k ha
              exact ⟨by omega, rg.lo a ha, rg.mid a ha⟩
            · intro ob obeg h _ hst; cases hst
            · intro h; cases h
          · intro c hc
            rw [show _ = w.stopped c from rfl, hstop c hc]
            unfold RS.stops
            constructor
            · rintro ⟨h1, _⟩; exact ⟨h1, fun p hp => by cases hp; exact Nat.zero_le _⟩
            · rintro ⟨h1, _⟩; exact ⟨h1, fun p hp => by rw [hpost] at hp; cases hp⟩
        · exact ⟨_, _, rfl, k⟩
      | none =>
        simp only
        split
        · rename_i hdr
          refine ⟨_, _, rfl, AStep.K (th := th) (th' := th)
            (r' := { r with post := some ⟨0, none, 0, 1, .load, false⟩ }) ?_ k hi hrem hown⟩
          refine
            { fit := k.fit
              beg := k.beg
              pop := fun c h => (Bool.and_eq_true _ _ ▸ h : _ ∧ _).1
              reg := ?_
              rs := by rw [hpl]
              rsok := ⟨rok.stopd, rok.initd, rok.todo, fun _ _ _ _ h => (by cases h), ?_⟩
              me := hi
              pc := hpc
              off := fun _ => hptr
              own := by rw [show ({ r with post := some ⟨0, none, 0, 1, .load, false⟩ } : RS).todo = r.todo from rfl, ht]; simpa using hptr
              others := fun j tj hj h => Or.inr ⟨h, fun c hc nf => (allf ht j c hj nf).elim⟩
              stop := ?_ }
          · intro c hc
            have hc' : (w.populated c && !ch.set c) = true := hc
            rw [Bool.and_eq_true] at hc'
            have hset : ch.set c = false := by simpa using hc'.2
            have rg := k.reg c hc'.1
            have e1 : ∀ a, (w.mem.zap w.slabs ch.set ch.zh ch.zs).hdr w.slabs c a = w.mem.hdr w.slabs c a := by
              intro a; simp [Mem.zap, hset]
            have e2 : ∀ a, (w.mem.zap w.slabs ch.set ch.zh ch.zs).slot w.slabs c a = w.mem.slot w.slabs c a := by
              intro a; simp [Mem.zap, hset]
            exact ⟨fun k hk => by rw [show _ = _ from e1 k]; exact rg.lo k hk,
              fun k hk => by rw [show _ = _ from e1 k]; exact rg.mid k hk,
              fun k hk => by rw [show _ = _ from e1 k]; exact rg.hi k hk,
              fun k hk => by rw [show _ = _ from e2 _]; exact rg.mark k hk,
              fun k hk x hx hx' => by rw [show _ = _ from e1 k] at hx'; rw [show _ = _ from e2 x]; exact rg.objs k hk x hx hx'⟩
          · intro p hp
            have hp' : some (⟨0, none, 0, 1, .load, false⟩ : Post) = some p := hp
            cases hp'
            exact ⟨ht, Nat.zero_le _, Nat.le_refl _, fun _ _ h => (by cases h), fun _ _ h => (by cases h),
              fun _ _ _ h => (by cases h), fun h => (by cases h)⟩
          · intro c hc
            rw [show _ = w.stopped c from rfl, hstop c hc]
            unfold RS.stops
            constructor
            · rintro ⟨h1, _⟩; exact ⟨h1, fun p hp => by cases hp; exact Nat.zero_le _⟩
            · rintro ⟨h1, _⟩; exact ⟨h1, fun p hp => by rw [hpost] at hp; cases hp⟩
        · exact ⟨_, _, rfl, k⟩
    · exact ⟨_, _, rfl, k⟩

/-- The end of an operation on all CPUs: everything is restarted; memory off the current slabs may change. -/
theorem K.finish {cfg w} (k : K cfg w) {i : Nat} {th : Thread} {r : RS} {p : Post} (hi : w.thr[i]? = some th)
    (hrs : w.rs = some (i, r)) (hpc : th.pc = .all) (hpost : r.post = some p) (hst : p.started = cfg.n) {m : Mem}
    (hm : ∀ c, (∀ k, m.hdr w.slabs c k = w.mem.hdr w.slabs c k) ∧ ∀ i, m.slot w.slabs c i = w.mem.slot w.slabs c i) :
    K cfg { w.goto i th .idle with mem := m, rs := none } := by
  have rok := (k.rs i r hrs).2
  have ht := (rok.post p hpost).1
  have hptr := k.all_ptr hi hrs hpc
  rw [if_neg (by rw [ht]; simp)] at hptr
  have fb : ∀ c o, FencedBy { w.goto i th .idle with mem := m, rs := none } c o → FencedBy w c o := by
    intro c o h
    rcases h with h | ⟨r, h, _⟩
    · exact Or.inl h
    · cases h
  have thr_cases : ∀ (j : Nat) (tx : Thread), (w.goto i th .idle).thr[j]? = some tx →
      (j = i ∧ tx = { th with pc := .idle }) ∨ (j ≠ i ∧ w.thr[j]? = some tx) := by
    intro j tx hx
    simp only [W.goto, W.set] at hx
    rw [set_get hi] at hx
    split at hx
    · rename_i e; cases hx; exact Or.inl ⟨e, rfl⟩
    · rename_i e; exact Or.inr ⟨e, hx⟩
  refine ⟨k.fit, k.beg, ?_, k.popn, ?_, ?_, ?_, ?_, ?_, ?_, ?_, ?_⟩
  · intro c hc
    have rg := k.reg c hc
    exact ⟨fun k hk => by show _ ≤ (m.hdr w.slabs c k).cur; rw [(hm c).1]; exact rg.lo k hk,
      fun k hk => by show (m.hdr w.slabs c k).cur ≤ (m.hdr w.slabs c k).fin; rw [(hm c).1]; exact rg.mid k hk,
      fun k hk => by show (m.hdr w.slabs c k).fin ≤ _; rw [(hm c).1]; exact rg.hi k hk,
      fun k hk => by show m.slot w.slabs c _ % 2 = 1; rw [(hm c).2]; exact rg.mark k hk,
      fun k hk x hx hx' => by
        show GoodObj (m.slot w.slabs c x)
        rw [(hm c).2]
        exact rg.objs k hk x hx (by have h' : x < (m.hdr w.slabs c k).cur := hx'; rw [(hm c).1] at h'; exact h')⟩
  · intro a b ta tb y ha hb ha' hb'
    have key : ∀ (j : Nat) (tx : Thread), (w.goto i th .idle).thr[j]? = some tx → tx.cpu = some y →
        ∃ t0, w.thr[j]? = some t0 ∧ t0.cpu = some y := by
      intro j tx hx hx'
      rcases thr_cases j tx hx with ⟨rfl, rfl⟩ | ⟨_, hx⟩
      · exact ⟨th, hi, hx'⟩
      · exact ⟨tx, hx, hx'⟩
    obtain ⟨t1, e1, c1⟩ := key a ta ha ha'
    obtain ⟨t2, e2, c2⟩ := key b tb hb hb'
    exact k.uniq a b t1 t2 y e1 e2 c1 c2
  · intro a ta y ha ha'
    rcases thr_cases a ta ha with ⟨rfl, rfl⟩ | ⟨_, hx⟩
    · exact k.cpus _ th y hi ha'
    · exact k.cpus a ta y hx ha'
  · intro a ta ha
    rcases thr_cases a ta ha with ⟨rfl, rfl⟩ | ⟨hne, h1⟩
    · exact (show PtrGood _ _ _ from Or.inl hptr)
    · refine (k.thr a ta h1).frame ?_ (fun c' h2 => rfl) (fun h2 => ?_)
      · intro c' hc' nf
        exact ⟨rfl, rfl, rfl, id, fun o hf => nf o (fb c' o hf), (hm c').1, (hm c').2⟩
      · have ok := k.thr a ta h1
        unfold ThOK at ok
        rw [h2] at ok
        simp only at ok
        obtain ⟨r0, h0, _⟩ := ok
        rw [hrs] at h0; cases h0; exact absurd rfl hne
  · intro a ta ha ha'
    rcases thr_cases a ta ha with ⟨rfl, rfl⟩ | ⟨hne, hx⟩
    · exact k.off _ th hi ha'
    · exact k.off a ta hx ha'
  · intro c' a y e
    obtain ⟨h1, ⟨t, h2, h3⟩, h4⟩ := k.rem c' a y e
    refine ⟨h1, ?_, h4.frame rfl rfl rfl rfl (hm c').1 (hm c').2⟩
    have ea : a ≠ i := by
      rintro rfl; rw [hi] at h2; cases h2; rw [hpc] at h3; cases h3
    exact ⟨t, by simp only [W.goto, W.set, set_get hi, if_neg ea]; exact h2, h3⟩
  · intro a r e; cases e
  · intro hf; cases hf
  · intro c' hc'
    refine Iff.trans (k.stop c' hc') ?_
    constructor
    · rintro (h | ⟨a, r', h1, h2, h3⟩)
      · exact Or.inl h
      · rw [hrs] at h1; cases h1
        have := h3 p hpost; omega
    · rintro (h | ⟨a, r', h1, _⟩)
      · exact Or.inl h
      · cases h1

theorem post_K {cfg w} (k : K cfg w) {i : Nat} {th : Thread} {r : RS} {p : Post} (ch : Ch) (hi : w.thr[i]? = some th)
    (hrs : w.rs = some (i, r)) (hpc : th.pc = .all) (hpost : r.post = some p) :
    ∃ w' out, stepPost cfg w i th r p ch = some (w', out) ∧ K cfg w' := by
  have hown : ∀ o r, w.rs = some (o, r) → o = i := by intro o r h; rw [hrs] at h; cases h; rfl
  have rok := (k.rs i r hrs).2
  obtain ⟨ht, pok⟩ := rok.post p hpost
  have hptr := k.all_ptr hi hrs hpc
  rw [if_neg (by rw [ht]; simp)] at hptr
  have hsd := rok.todo (by rw [ht]; simp)
  have free : p.unlocked = false → ∀ c, w.rem c = none := by
    intro h; apply k.excl; unfold W.allFree; rw [hrs]; simp only [hpost]; exact h
  -- a step that changes `post`, the memory of the old slabs and the objects outside
  have gen : (∀ c, w.rem c = none) → ∀ (p' : Post) (m : Mem) (h : List (Nat × Nat)), p'.started = p.started →
      (∀ c, (∀ k, m.hdr w.slabs c k = w.mem.hdr w.slabs c k) ∧ ∀ i, m.slot w.slabs c i = w.mem.slot w.slabs c i) →
      PostOK cfg { w.setRS i { r with post := some p' } with mem := m, held := h } p' →
      K cfg { w.setRS i { r with post := some p' } with mem := m, held := h } := by
    intro hrem p' m h hst hm ok
    refine AStep.K (th := th) (th' := th) (r' := { r with post := some p' }) ?_ k hi hrem hown
    refine
      { fit := k.fit
        beg := k.beg
        reg := ?_
        rs := rfl
        rsok := ⟨rok.stopd, rok.initd, rok.todo, fun _ _ _ _ h => (by cases h), fun q hq => ?_⟩
        me := hi
        pc := hpc
        off := fun _ => hptr
        own := by rw [show ({ r with post := some p' } : RS).todo = r.todo from rfl, ht]; simpa using hptr
        others := ?_
        stop := ?_ }
    · intro c hc
      have rg := k.reg c hc
      exact ⟨fun k hk => by show _ ≤ (m.hdr w.slabs c k).cur; rw [(hm c).1]; exact rg.lo k hk,
        fun k hk => by show (m.hdr w.slabs c k).cur ≤ (m.hdr w.slabs c k).fin; rw [(hm c).1]; exact rg.mid k hk,
        fun k hk => by show (m.hdr w.slabs c k).fin ≤ _; rw [(hm c).1]; exact rg.hi k hk,
        fun k hk => by show m.slot w.slabs c _ % 2 = 1; rw [(hm c).2]; exact rg.mark k hk,
        fun k hk x hx hx' => by
          show GoodObj (m.slot w.slabs c x)
          rw [(hm c).2]
          exact rg.objs k hk x hx (by have h' : x < (m.hdr w.slabs c k).cur := hx'; rw [(hm c).1] at h'; exact h')⟩
    · have hq' : some p' = some q := hq
      cases hq'
      exact ⟨ht, ok⟩
    · intro j tj hj hh
      refine Or.inr ⟨hh, fun c hc nf => ⟨rfl, rfl, rfl, id, ?_, (hm c).1, (hm c).2⟩⟩
      refine noFence_rs hrem hrs rfl (fun hf => ⟨hf.1, fun q hq => ?_⟩) nf
      rw [hpost] at hq; cases hq
      have := hf.2 p' rfl; omega
    · intro c hc
      show w.stopped c = true ↔ _
      rw [k.stop_rs hrs hrem hc]
      unfold RS.stops
      constructor
      · rintro ⟨h1, h2⟩; refine ⟨h1, fun q hq => ?_⟩; cases hq; have := h2 p hpost; omega
      · rintro ⟨h1, h2⟩; refine ⟨h1, fun q hq => ?_⟩; rw [hpost] at hq; cases hq; have := h2 p' rfl; omega
  unfold stepPost
  split
  · rename_i hlt
    have hu : p.unlocked = false := by
      cases e : p.unlocked
      · rfl
      · have := (pok.unl e).1; omega
    have hrem := free hu
    refine ⟨_, _, rfl, AStep.K (th := th) (th' := th) (r' := { r with post := some { p with started := p.started + 1 } }) ?_ k hi hrem hown⟩
    refine
      { fit := k.fit
        beg := k.beg
        reg := k.reg
        rs := rfl
        rsok := ⟨rok.stopd, rok.initd, rok.todo, fun _ _ _ _ h => (by cases h), fun q hq => ?_⟩
        me := hi
        pc := hpc
        off := fun _ => hptr
        own := by rw [show ({ r with post := some { p with started := p.started + 1 } } : RS).todo = r.todo from rfl, ht]; simpa using hptr
        others := ?_
        stop := ?_ }
    · have hq' : some { p with started := p.started + 1 } = some q := hq
      cases hq'
      exact ⟨ht, hlt, pok.ok, pok.ne, pok.pend, pok.hand, fun h => by
        have h' : p.unlocked = true := h
        rw [hu] at h'; cases h'⟩
    · intro j tj hj hh
      refine Or.inr ⟨hh, fun c hc nf => ⟨rfl, rfl, rfl, id, ?_, fun _ => rfl, fun _ => rfl⟩⟩
      refine noFence_rs hrem hrs rfl (fun hf => ⟨hf.1, fun q hq => ?_⟩) nf
      rw [hpost] at hq; cases hq
      have : p.started + 1 ≤ c := hf.2 _ rfl
      omega
    · intro c hc
      simp only [W.setRS, W.setStopped]
      split
      · rename_i e
        subst e
        constructor
        · intro h; cases h
        · rintro ⟨_, h2⟩
          have : p.started + 1 ≤ p.started := h2 _ rfl
          omega
      · rename_i e
        rw [k.stop_rs hrs hrem hc]
        unfold RS.stops
        constructor
        · rintro ⟨h1, h2⟩; refine ⟨h1, fun q hq => ?_⟩; cases hq; have := h2 p hpost; show p.started + 1 ≤ c; omega
        · rintro ⟨h1, h2⟩; refine ⟨h1, fun q hq => ?_⟩; rw [hpost] at hq; cases hq
          have : p.started + 1 ≤ c := h2 _ rfl
          omega
  · rename_i hge
    have hst : p.started = cfg.n := by have := pok.le; omega
    cases hold : p.old with
    | none => exact ⟨_, _, rfl, k.finish hi hrs hpc hpost hst (fun _ => ⟨fun _ => rfl, fun _ => rfl⟩)⟩
    | some o =>
      obtain ⟨ob, obeg⟩ := o
      simp only
      have hne := pok.ne ob obeg hold
      have same : ∀ c, (∀ k, w.mem.hdr w.slabs c k = w.mem.hdr w.slabs c k) ∧ ∀ i, w.mem.slot w.slabs c i = w.mem.slot w.slabs c i :=
        fun _ => ⟨fun _ => rfl, fun _ => rfl⟩
      split
      · rename_i hoc
        have hu : p.unlocked = false := by
          cases e : p.unlocked
          · rfl
          · have := (pok.unl e).2; omega
        have hrem := free hu
        have unl : ∀ q : Post, q.unlocked = p.unlocked → q.unlocked = true → q.started = cfg.n ∧ cfg.n ≤ q.oc := by
          intro q e1 e2; rw [e1, hu] at e2; cases e2
        -- moving on without touching memory
        have move : ∀ (p' : Post) (h : List (Nat × Nat)), p'.started = p.started → p'.old = p.old → 1 ≤ p'.ok →
            p'.unlocked = p.unlocked →
            (∀ c a, Valid cfg.nc a → p'.pending c a = true → p.pending c a = true) →
            (∀ h, p'.st = .hand h → h = w.mem.hdr ob p'.oc p'.ok) →
            K cfg { w.setRS i { r with post := some p' } with held := h } := by
          intro p' h e1 e2 e3 e4 e5 e6
          refine gen hrem p' w.mem h e1 same ⟨by rw [e1]; exact pok.le, e3, ?_, ?_, ?_, unl p' e4⟩
          · rw [e2]; exact pok.ne
          · intro ob' obeg' ho c a hc ha hp
            rw [e2] at ho
            exact pok.pend ob' obeg' ho c a hc ha (e5 c a ha hp)
          · intro ob' obeg' hh ho hst'
            rw [e2, hold] at ho; cases ho
            exact e6 hh hst'
        have nextc : K cfg (w.setRS i { r with post := some { p with oc := p.oc + 1, ok := 1, st := .load } }) := by
          refine move { p with oc := p.oc + 1, ok := 1, st := .load } w.held rfl rfl (Nat.le_refl _) rfl ?_ ?_
          · intro c a ha hp
            unfold Post.pending at hp ⊢
            simp only [decide_eq_true_eq] at hp ⊢
            omega
          · intro h hh; cases hh
        have nextk : p.st = .load → K cfg (w.setRS i { r with post := some { p with ok := p.ok + 1 } }) := by
          intro hld
          refine move { p with ok := p.ok + 1 } w.held rfl rfl (by simp) rfl ?_ ?_
          · intro c a ha hp
            unfold Post.pending at hp ⊢
            simp only [decide_eq_true_eq] at hp ⊢
            omega
          · intro h hh
            rw [show ({ p with ok := p.ok + 1 } : Post).st = p.st from rfl, hld] at hh; cases hh
        rw [hold] at nextc nextk
        split
        · exact ⟨_, _, rfl, nextc⟩
        · rename_i hpop
          have hpop' : w.populated p.oc = true := by simpa using hpop
          split
          · exact ⟨_, _, rfl, nextc⟩
          · rename_i hok
            have hval : Valid cfg.nc p.ok := ⟨pok.ok, by omega⟩
            split
            · rename_i hstg
              split
              · exact ⟨_, _, rfl, nextk hstg⟩
              · refine ⟨_, _, rfl, ?_⟩
                have := move { p with st := .hand (w.mem.hdr ob p.oc p.ok) } w.held rfl rfl pok.ok rfl ?_ ?_
                · rw [hold] at this; exact this
                · intro c a ha hp
                  unfold Post.pending at hp ⊢
                  rw [hstg]
                  simp only [decide_eq_true_eq] at hp ⊢
                  rcases hp with h | ⟨h, h' | ⟨h', _⟩⟩
                  · exact Or.inl h
                  · exact Or.inr ⟨h, Or.inl h'⟩
                  · exact Or.inr ⟨h, Or.inr ⟨h', by simp⟩⟩
                · intro h hh
                  have hh' : OStage.hand (w.mem.hdr ob p.oc p.ok) = OStage.hand h := hh
                  cases hh'; rfl
            · rename_i h hstg
              have hh := pok.hand ob obeg h hold hstg
              have hpd : p.pending p.oc p.ok = true := by
                unfold Post.pending
                rw [hstg]
                simp
              obtain ⟨q1, q2, q3⟩ := pok.pend ob obeg hold p.oc p.ok hpop' hval hpd
              rw [← hh] at q2 q3
              rw [if_neg (by omega)]
              refine ⟨_, _, rfl, ?_⟩
              have := fun hl => move { p with st := .store } hl rfl rfl pok.ok rfl ?_ ?_
              · rw [hold] at this; exact this _
              · intro c a ha hp
                unfold Post.pending at hp ⊢
                simp only [decide_eq_true_eq] at hp ⊢
                rcases hp with h | ⟨h, h' | ⟨h', h''⟩⟩
                · exact Or.inl h
                · exact Or.inr ⟨h, Or.inl h'⟩
                · exact absurd rfl h''
              · intro h hh; cases hh
            · rename_i hstg
              refine ⟨_, _, rfl, ?_⟩
              have hm : ∀ c, (∀ k, (w.mem.setH ob p.oc p.ok ⟨obeg p.ok, obeg p.ok⟩).hdr w.slabs c k = w.mem.hdr w.slabs c k) ∧
                  ∀ i, (w.mem.setH ob p.oc p.ok ⟨obeg p.ok, obeg p.ok⟩).slot w.slabs c i = w.mem.slot w.slabs c i :=
                fun c => setH_off _ _ _ _ _ _ _ (by rintro ⟨h, _⟩; exact hne h.symm)
              have := gen hrem { p with ok := p.ok + 1, st := .load } (w.mem.setH ob p.oc p.ok ⟨obeg p.ok, obeg p.ok⟩) w.held rfl hm
                ⟨pok.le, by simp, pok.ne, ?_, fun _ _ _ _ h => (by cases h), unl _ rfl⟩
              · rw [hold] at this; exact this
              · intro ob' obeg' ho c a hc ha hp
                have ho' : p.old = some (ob', obeg') := ho
                rw [hold] at ho'; cases ho'
                unfold Post.pending at hp
                simp only [decide_eq_true_eq] at hp
                have hp0 : p.pending c a = true := by
                  unfold Post.pending
                  simp only [decide_eq_true_eq]
                  omega
                have e1 : (w.mem.setH ob p.oc p.ok ⟨obeg p.ok, obeg p.ok⟩).hdr ob c a = w.mem.hdr ob c a := by
                  simp only [Mem.setH]
                  rw [if_neg (by rintro ⟨_, h1, h2⟩; omega)]
                show _ ∧ _ ≤ ((w.mem.setH ob p.oc p.ok ⟨obeg p.ok, obeg p.ok⟩).hdr ob c a).cur ∧
                  ((w.mem.setH ob p.oc p.ok ⟨obeg p.ok, obeg p.ok⟩).hdr ob c a).cur ≤
                  ((w.mem.setH ob p.oc p.ok ⟨obeg p.ok, obeg p.ok⟩).hdr ob c a).fin
                rw [e1]
                exact pok.pend ob obeg hold c a hc ha hp0
      · rename_i hoc
        split
        · refine ⟨_, _, rfl, k.finish hi hrs hpc hpost hst (fun c => ⟨fun a => ?_, fun a => ?_⟩)⟩
          · simp only [Mem.zap]; rw [if_neg (by rintro ⟨h, _⟩; exact hne h.symm)]
          · simp only [Mem.zap]; rw [if_neg (by rintro ⟨h, _⟩; exact hne h.symm)]
        · rename_i hu
          refine ⟨_, _, rfl, ?_⟩
          have := gen (free (by simpa using hu)) { p with unlocked := true } w.mem w.held rfl same
            ⟨pok.le, pok.ok, pok.ne, pok.pend, pok.hand, fun _ => ⟨hst, by show cfg.n ≤ p.oc; omega⟩⟩
          rw [hold] at this; exact this

/-! ### Scheduling and calls -/

theorem ThOK.restarted {cfg w j th} (h : ThOK cfg w j th) (hp : th.ptr = .none) : th.pc.restart = th.pc := by
  unfold ThOK at h
  cases e : th.pc <;> rw [e] at h <;> simp only [PC.restart] at h ⊢
  all_goals exfalso
  case push1 => have := h.2.2.1; rw [hp] at this; cases this
  case push2 => have := h.2.2.1.1; rw [hp] at this; cases this
  case push3 => have := h.2.2.1.1; rw [hp] at this; cases this
  case push4 => have := h.2.2.1.1; rw [hp] at this; cases this
  case pop1 => have := h.2.1; rw [hp] at this; cases this
  case pop2 => have := h.2.1.1; rw [hp] at this; cases this
  case pop3 => have := h.2.1.1; rw [hp] at this; cases this
  case pop4 => have := h.2.1.1; rw [hp] at this; cases this
  case pushB1 => have := h.2.2.1; rw [hp] at this; cases this
  case pushB2 => have := h.2.2.1.1; rw [hp] at this; cases this
  case pushB3 => have := h.2.2.1.1; rw [hp] at this; cases this
  case popB1 => have := h.2.2.1; rw [hp] at this; cases this
  case popB2 => have := h.2.2.1.1; rw [hp] at this; cases this
  case popB3 => have := h.2.2.1.1; rw [hp] at this; cases this
  case grow5 => exact h.2.2.1 hp
  case cache5 => have := h.2.1; rw [hp] at this; cases this

/-- The scheduler changes thread `i`. -/
theorem K.resched {cfg w} (k : K cfg w) {i : Nat} {th th' : Thread} (hi : w.thr[i]? = some th) (hp : th'.ptr = .none)
    (hpc : th'.pc = th.pc.restart)
    (hc : ∀ c, th'.cpu = some c → c < cfg.n ∧ ∀ (j : Nat) (tj : Thread), j ≠ i → w.thr[j]? = some tj → tj.cpu ≠ some c) :
    K cfg (w.set i th') := by
  have thr_cases : ∀ (j : Nat) (tx : Thread), (w.set i th').thr[j]? = some tx →
      (j = i ∧ tx = th') ∨ (j ≠ i ∧ w.thr[j]? = some tx) := by
    intro j tx hx
    simp only [W.set] at hx
    rw [set_get hi] at hx
    split at hx
    · rename_i e; cases hx; exact Or.inl ⟨e, rfl⟩
    · rename_i e; exact Or.inr ⟨e, hx⟩
  refine ⟨k.fit, k.beg, k.reg, k.popn, ?_, ?_, ?_, ?_, ?_, ?_, k.excl, k.stop⟩
  · intro a b ta tb y ha hb ha' hb'
    rcases thr_cases a ta ha with ⟨rfl, rfl⟩ | ⟨na, ha1⟩ <;> rcases thr_cases b tb hb with ⟨rfl, rfl⟩ | ⟨nb, hb1⟩
    · rfl
    · exact absurd hb' ((hc y ha').2 b tb nb hb1)
    · exact absurd ha' ((hc y hb').2 a ta na ha1)
    · exact k.uniq a b ta tb y ha1 hb1 ha' hb'
  · intro a ta y ha ha'
    rcases thr_cases a ta ha with ⟨rfl, rfl⟩ | ⟨_, hx⟩
    · exact (hc y ha').1
    · exact k.cpus a ta y hx ha'
  · intro a ta ha
    rcases thr_cases a ta ha with ⟨rfl, rfl⟩ | ⟨hne, h1⟩
    · refine (k.thr a th hi).fixed hp hpc ?_ ?_
      · intro c h2
        have ok := k.thr a th hi
        unfold ThOK at ok
        rw [h2] at ok
        exact ⟨_, ok.choose_spec.1⟩
      · intro h2
        have ok := k.thr a th hi
        unfold ThOK at ok
        rw [h2] at ok
        exact ⟨_, ok.choose_spec.1⟩
    · exact (k.thr a ta h1).frame (fun c _ nf => ⟨rfl, rfl, rfl, id, nf, fun _ => rfl, fun _ => rfl⟩)
        (fun _ _ => rfl) (fun _ => rfl)
  · intro a ta ha ha'
    rcases thr_cases a ta ha with ⟨rfl, rfl⟩ | ⟨hne, hx⟩
    · exact hp
    · exact k.off a ta hx ha'
  · intro c' a y e
    obtain ⟨h1, ⟨t, h2, h3⟩, h4⟩ := k.rem c' a y e
    refine ⟨h1, ?_, h4.frame rfl rfl rfl rfl (fun _ => rfl) (fun _ => rfl)⟩
    by_cases ea : a = i
    · subst ea; rw [hi] at h2; cases h2
      exact ⟨th', set_me hi, by rw [hpc]; exact (restart_remote _ _).2 h3⟩
    · exact ⟨t, (set_ne hi ea).trans h2, h3⟩
  · intro a r e
    obtain ⟨⟨t, h2, h3⟩, h4⟩ := k.rs a r e
    refine ⟨?_, h4.frame rfl (fun _ => Or.inl rfl) k.popn (fun _ _ _ => ⟨fun _ => rfl, fun _ => rfl⟩)⟩
    by_cases ea : a = i
    · subst ea; rw [hi] at h2; cases h2
      exact ⟨th', set_me hi, by rw [hpc]; exact (restart_all _).2 h3⟩
    · exact ⟨t, (set_ne hi ea).trans h2, h3⟩

/-- Objects come and go outside. -/
theorem K.held {cfg w} (k : K cfg w) (h : List (Nat × Nat)) : K cfg { w with held := h } := by
  refine ⟨k.fit, k.beg, k.reg, k.popn, k.uniq, k.cpus, ?_, k.off, ?_, ?_, k.excl, k.stop⟩
  · intro a ta ha
    exact (k.thr a ta ha).frame (fun c _ nf => ⟨rfl, rfl, rfl, id, nf, fun _ => rfl, fun _ => rfl⟩)
      (fun _ _ => rfl) (fun _ => rfl)
  · intro c' a y e
    obtain ⟨h1, h2, h4⟩ := k.rem c' a y e
    exact ⟨h1, h2, h4.frame rfl rfl rfl rfl (fun _ => rfl) (fun _ => rfl)⟩
  · intro a r e
    obtain ⟨h2, h4⟩ := k.rs a r e
    exact ⟨h2, h4.frame rfl (fun _ => Or.inl rfl) k.popn (fun _ _ _ => ⟨fun _ => rfl, fun _ => rfl⟩)⟩

/-- The start of an operation on all CPUs. -/
theorem K.begin {cfg w} (k : K cfg w) {i : Nat} {th : Thread} (hi : w.thr[i]? = some th) (hidle : th.pc = .idle)
    (hrs : w.rs = none) (hrem : ∀ c, w.rem c = none) {r : RS} (h1 : r.stopd = 0) (h2 : r.todo = none) (h3 : r.post = none)
    (h4 : ∀ nb ncaps lim, r.plan = some (nb, ncaps, lim) → r.initd = 0 ∧ nb ≠ w.slabs ∧ Fits cfg.nc ncaps lim) :
    K cfg ((w.goto i th .all).setRS i r) := by
  have ok := k.thr i th hi
  unfold ThOK at ok
  rw [hidle] at ok
  simp only at ok
  refine AStep.K (th := th) (th' := { th with pc := .all }) (r' := r) ?_ k hi hrem (fun o r h => by rw [hrs] at h; cases h)
  refine
    { fit := k.fit
      beg := k.beg
      reg := k.reg
      rs := rfl
      rsok := ⟨by omega, fun nb ncaps lim h => by rw [(h4 nb ncaps lim h).1]; omega, fun h => absurd h2 h, ?_,
        fun p h => by rw [h3] at h; cases h⟩
      len := set_len
      me := set_me hi
      pc := rfl
      off := k.off i th hi
      own := ?_
      others := ?_
      stop := ?_ }
  · intro nb ncaps lim h _
    obtain ⟨e1, e2, e3⟩ := h4 nb ncaps lim h
    exact ⟨e2, e3, fun c hc => by omega⟩
  · rw [if_pos h2]
    exact ok.owner rfl (fun _ h => h) hrem rfl rfl rfl rfl rfl
  · intro j tj hj h
    refine Or.inr ⟨(set_ne hi hj).trans h, fun c hc nf => ⟨rfl, rfl, rfl, id, ?_, fun _ => rfl, fun _ => rfl⟩⟩
    intro o hf
    rcases hf with ⟨st, g1, _⟩ | ⟨x, g1, ⟨⟨l, g2, _⟩, _⟩⟩
    · have g1' : w.rem c = _ := g1
      rw [hrem] at g1'; cases g1'
    · have g1' : some (i, r) = some (o, x) := g1
      cases g1'
      rw [h2] at g2; cases g2
  · intro c hc
    show w.stopped c = true ↔ _
    rw [k.stop c hc]
    constructor
    · rintro (⟨a, x, g1, _⟩ | ⟨a, x, g1, _⟩)
      · rw [hrem] at g1; cases g1
      · rw [hrs] at g1; cases g1
    · rintro ⟨h, _⟩; omega

theorem call_K {cfg w} (k : K cfg w) {i : Nat} {op : Op} (hpre : Pre cfg w (.call i op)) :
    ∃ th, w.thr[i]? = some th ∧ K cfg (call cfg w i th op).1 := by
  obtain ⟨th, hi, hidle, hcpu, h⟩ := hpre
  refine ⟨th, hi, ?_⟩
  have ok := k.thr i th hi
  unfold ThOK at ok
  rw [hidle] at ok
  simp only at ok
  have n1 : ∀ c, th.pc ≠ .remote c := by intro c e; rw [hidle] at e; cases e
  have n2 : th.pc ≠ .all := by intro e; rw [hidle] at e; cases e
  cases op <;> simp only at h <;> simp only [call]
  case push a o => exact k.goto (pc := .push0 a o) hi (show _ ∧ _ ∧ PtrGood w i _ from ⟨h.1, h.2.1, ok.pc _⟩) n1 n2 _
  case pop a => exact k.goto' (pc := .pop0 a) hi (show _ ∧ PtrGood w i _ from ⟨h, ok.pc _⟩) n1 n2
  case pushB a l =>
    exact k.goto (pc := .pushB0 a l) hi (show _ ∧ _ ∧ PtrGood w i _ from ⟨h.1, ⟨h.2.1, h.2.2.1⟩, ok.pc _⟩) n1 n2 _
  case popB a n => exact k.goto' (pc := .popB0 a n) hi (show _ ∧ _ ∧ PtrGood w i _ from ⟨h.1, h.2, ok.pc _⟩) n1 n2
  case grow a len => exact k.goto' (pc := .grow0 a len) hi (show _ ∧ PtrGood w i _ from ⟨h, ok.pc _⟩) n1 n2
  case cache =>
    split
    · exact k.goto' (pc := .cache1) hi (show True from trivial) n1 n2
    · rename_i hne
      refine k.local (th' := { th with ret := th.vcpu }) hi ?_ rfl (fun e => absurd e hcpu) (fun c e => absurd e (n1 c)) (fun e => absurd e n2) w.held
      unfold ThOK
      simp only [hidle]
      rcases ok with g | ⟨b, c, g, gg⟩
      · exact absurd g (by intro h; exact hne h)
      · exact Or.inr ⟨b, c, g, gg.cpu, gg.slabs, gg.pop, gg.nf, gg.vcpu, gg.vcpu⟩
  case uncache =>
    refine k.local (th' := { th with ptr := .none }) hi ?_ rfl (fun _ => rfl) (fun c e => absurd e (n1 c)) (fun e => absurd e n2) w.held
    unfold ThOK
    simp only [hidle]
    exact Or.inl rfl
  case remote c =>
    refine k.owner (x := some (.locked false)) (pc := .remote c) hi h.2.2 h.1 ?_ ?_ n2 ?_ ?_
    · intro o st h'; rw [h.2.1] at h'; cases h'
    · intro c' h; exact absurd h (n1 c')
    · intro st h; cases h; exact ⟨rfl, rfl, trivial⟩
    · intro w' f1 f2 e1 e2 er
      refine (show ∃ st, _ ∧ _ from ⟨.locked false, er _ rfl, ?_⟩)
      show PtrGood w' i _
      rcases ok with g | ⟨b, v, g, gg⟩
      · exact Or.inl g
      · refine Or.inr ⟨b, v, g, gg.cpu, gg.slabs.trans e1.symm, by rw [e2]; exact gg.pop, ?_, gg.vcpu, gg.ret⟩
        intro o hf
        by_cases e : v = c
        · subst e; exact gg.nf o (f1 o hf)
        · exact gg.nf o (f2 v o e hf)
  case resize nb ncaps lim =>
    exact k.begin hi hidle h.2.2.1 h.2.2.2 rfl rfl rfl (fun _ _ _ e => by cases e; exact ⟨rfl, h.1, h.2.1⟩)
  case release =>
    exact k.begin hi hidle h.1 h.2 rfl rfl rfl (fun _ _ _ e => by cases e)

theorem thread_K {cfg w} (k : K cfg w) {i : Nat} {th : Thread} {cpu : Nat} {ch : Ch} (hi : w.thr[i]? = some th)
    (hcpu : th.cpu = some cpu)
    (hpre : ∀ c o, w.rem c = some (o, .ready false) → th.pc = .remote c → 2 ≤ ch.op → Valid cfg.nc ch.k) :
    ∃ w' out, stepThread cfg w i th cpu ch = some (w', out) ∧ K cfg w' := by
  have ok := k.thr i th hi
  unfold ThOK at ok
  unfold stepThread
  cases hpc : th.pc
  case idle => exact ⟨_, _, rfl, k⟩
  case remote c =>
    rw [hpc] at ok
    simp only at ok
    obtain ⟨st, hst, _⟩ := ok
    simp only [hst]
    cases st
    case locked => exact stop_K k ch hi hcpu hst hpc trivial
    case stopping => exact stop_K k ch hi hcpu hst hpc trivial
    case fencing => exact stop_K k ch hi hcpu hst hpc trivial
    case inited => exact stop_K k ch hi hcpu hst hpc trivial
    case started => exact stop_K k ch hi hcpu hst hpc trivial
    case fin => exact stop_K k ch hi hcpu hst hpc trivial
    case ready p => exact body_K k ch hi hst hpc (fun e h => hpre c i (by rw [hst, e]) hpc h) trivial
    all_goals exact body_K k ch hi hst hpc (fun e _ => by cases e) trivial
  case all =>
    rw [hpc] at ok
    simp only at ok
    obtain ⟨r, hr, _⟩ := ok
    simp only [hr]
    cases hp : r.post with
    | none => exact pre_K k ch hi hr hpc hp
    | some p => exact post_K k ch hi hr hpc hp
  case push0 => exact push_K k hi hpc trivial
  case push1 => exact push_K k hi hpc trivial
  case push2 => exact push_K k hi hpc trivial
  case push3 => exact push_K k hi hpc trivial
  case push4 => exact push_K k hi hpc trivial
  case pop0 => exact pop_K k hi hpc trivial
  case pop1 => exact pop_K k hi hpc trivial
  case pop2 => exact pop_K k hi hpc trivial
  case pop3 => exact pop_K k hi hpc trivial
  case pop4 => exact pop_K k hi hpc trivial
  case pushB0 => exact pushB_K k hi hpc trivial
  case pushB1 => exact pushB_K k hi hpc trivial
  case pushB2 => exact pushB_K k hi hpc trivial
  case pushB3 => exact pushB_K k hi hpc trivial
  case popB0 => exact popB_K k hi hpc trivial
  case popB1 => exact popB_K k hi hpc trivial
  case popB2 => exact popB_K k hi hpc trivial
  case popB3 => exact popB_K k hi hpc trivial
  case grow0 => exact grow_K k hi ch hpc trivial
  case grow1 => exact grow_K k hi ch hpc trivial
  case grow2 => exact grow_K k hi ch hpc trivial
  case grow3 => exact grow_K k hi ch hpc trivial
  case grow4 => exact grow_K k hi ch hpc trivial
  case grow5 => exact grow_K k hi ch hpc trivial
  all_goals exact cache_K k hi hcpu hpc trivial

theorem step_K {cfg w e} (k : K cfg w) (hpre : Pre cfg w e) : ∃ w' out, step cfg w e = some (w', out) ∧ K cfg w' := by
  cases e
  case call i op =>
    obtain ⟨th, hi, h⟩ := call_K k hpre
    simp only [step, hi]
    exact ⟨_, _, rfl, h⟩
  case act i ch =>
    obtain ⟨th, hi, hcpu, h⟩ := hpre
    simp only [step, hi]
    cases hc : th.cpu with
    | none => exact absurd hc hcpu
    | some cpu => exact thread_K k hi hc h
  case schedOut i =>
    obtain ⟨th, hi, _⟩ := hpre
    simp only [step, hi]
    exact ⟨_, _, rfl, k.resched hi rfl rfl (fun c h => by cases h)⟩
  case schedIn i c =>
    obtain ⟨hc, ⟨th, hi, hoff⟩, hfree⟩ := hpre
    simp only [step, hi]
    have hp := k.off i th hi hoff
    refine ⟨_, _, rfl, k.resched hi hp ((k.thr i th hi).restarted hp).symm (fun c' h => ?_)⟩
    cases h
    exact ⟨hc, fun j tj _ hj => hfree tj (List.mem_of_getElem? hj)⟩
  case signal i =>
    obtain ⟨th, hi⟩ := hpre
    simp only [step, hi]
    refine ⟨_, _, rfl, k.resched hi rfl rfl (fun c h => ⟨k.cpus i th c hi h, fun j tj hj h1 h2 => ?_⟩)⟩
    exact hj (k.uniq j i tj th c h1 hi h2 h)
  case give a o => exact ⟨_, _, rfl, k.held _⟩
  case take a o => exact ⟨_, _, rfl, k.held _⟩

theorem init_K {cfg m b caps lim threads w} (f : Fits cfg.nc caps lim) (h : W.init cfg m b caps lim threads = some w) :
    K cfg w := by
  unfold W.init at h
  rw [f.initSlabs] at h
  simp only [Option.some.injEq] at h
  subst h
  have hth : ∀ (i : Nat) (th : Thread), (List.replicate threads (⟨none, .none, 0, 0, .idle⟩ : Thread))[i]? = some th →
      th = ⟨none, .none, 0, 0, .idle⟩ := by
    intro i th h
    rw [List.getElem?_replicate] at h
    split at h
    · cases h; rfl
    · cases h
  refine ⟨f, fun a ha => f.mod ha, fun c h => (by cases h), fun c h => (by cases h), ?_, ?_, ?_, ?_, fun c i st h => (by cases h),
    fun i r h => (by cases h), fun h => (by cases h), ?_⟩
  · intro i j th th' c h _ h1 _
    rw [hth i th h] at h1; cases h1
  · intro i th c h h1
    rw [hth i th h] at h1; cases h1
  · intro i th h
    rw [hth i th h]
    exact (show PtrGood _ _ _ from Or.inl rfl)
  · intro i th h _
    rw [hth i th h]
  · intro c _
    constructor
    · intro h; cases h
    · rintro (⟨_, _, h, _⟩ | ⟨_, _, h, _⟩) <;> cases h

theorem Reach.K {cfg w} (h : Reach cfg w) : K cfg w := by
  induction h with
  | init f h => exact init_K f h
  | step _ hpre hs ih =>
    obtain ⟨w', out, e, k⟩ := step_K ih hpre
    rw [e] at hs
    cases hs
    exact k

end Verif.Slab
