import Verif.Slab.Seq
/-! Operations on one locked CPU: general preservation lemmas. -/
namespace Verif.Slab

/-- What a step of the owner `i` of the lock of CPU `c` does, from stage `st` to `st'`. -/
structure RStep (cfg : Cfg) (w : W) (i : Nat) (th : Thread) (c : Nat) (st : RStage) (w' : W) (th' : Thread)
    (st' : RStage) : Prop where
  slabs : w'.slabs = w.slabs := by rfl
  begins : w'.begins = w.begins := by rfl
  caps : w'.caps = w.caps := by rfl
  lim : w'.lim = w.lim := by rfl
  rs : w'.rs = w.rs := by rfl
  rem : ∀ c', w'.rem c' = if c' = c then some (i, st') else w.rem c' := by exact fun _ => rfl
  mem : ∀ b' c', ¬ (b' = w.slabs ∧ c' = c) →
    (∀ k, w'.mem.hdr b' c' k = w.mem.hdr b' c' k) ∧ ∀ i, w'.mem.slot b' c' i = w.mem.slot b' c' i
  here : ((∀ k, w'.mem.hdr w.slabs c k = w.mem.hdr w.slabs c k) ∧
    ∀ i, w'.mem.slot w.slabs c i = w.mem.slot w.slabs c i) ∨ st.fenced c
  pop : ∀ c', c' ≠ c → w'.populated c' = w.populated c' := by exact fun _ _ => rfl
  popc : w.populated c = true → w'.populated c = true := by exact id
  reg : w'.populated c = true → RegOK cfg.nc w.caps w.begins w'.mem w.slabs c
  stok : StOK cfg w' c st'
  stopped : ∀ c', c' ≠ c → w'.stopped c' = w.stopped c' := by exact fun _ _ => rfl
  stopc : w'.stopped c = st'.stops
  len : w'.thr.length = w.thr.length := by rfl
  me : w'.thr[i]? = some th'
  cpu : th'.cpu = th.cpu := by rfl
  pc : th'.pc = .remote c
  own : th'.ptr = .none ∨ (th'.ptr = th.ptr ∧ th'.ret = th.ret ∧ (th'.vcpu = th.vcpu ∨ th.cpu = some th'.vcpu))
  isPop : st'.isPop = st.isPop ∨ (st.isPop = true ∧ st'.isPop = false ∧ w'.populated c = true)
  others : ∀ (j : Nat) (tj : Thread), j ≠ i → w.thr[j]? = some tj → w'.thr[j]? = some tj.fix ∨
    (w'.thr[j]? = some tj ∧ (st'.fenced c → st.fenced c ∨ tj.cpu ≠ some c))

theorem restart_remote (pc : PC) (c : Nat) : pc.restart = .remote c ↔ pc = .remote c := by
  cases pc <;> simp [PC.restart]

theorem restart_all (pc : PC) : pc.restart = .all ↔ pc = .all := by
  cases pc <;> simp [PC.restart]

theorem K.unlocked_of_rem {cfg w} (k : K cfg w) {c i : Nat} {st : RStage} (h : w.rem c = some (i, st)) :
    w.allFree = true := by
  cases e : w.allFree
  · have := k.excl e c; rw [this] at h; cases h
  · rfl

theorem allFree_post {w : W} (h : w.allFree = true) {i : Nat} {r : RS} (e : w.rs = some (i, r)) :
    ∃ p, r.post = some p ∧ p.unlocked = true := by
  unfold W.allFree at h
  rw [e] at h
  simp only at h
  cases hp : r.post with
  | none => rw [hp] at h; cases h
  | some p => rw [hp] at h; exact ⟨p, rfl, h⟩

theorem K.rs_not_stops {cfg w} (k : K cfg w) (h : w.allFree = true) {i : Nat} {r : RS} (e : w.rs = some (i, r)) {c : Nat}
    (hc : c < cfg.n) : ¬ r.stops c ∧ ¬ r.fenced c := by
  obtain ⟨p, hp, hu⟩ := allFree_post h e
  have := (((k.rs i r e).2.post p hp).2.unl hu).1
  constructor
  · rintro ⟨_, h2⟩; have := h2 p hp; omega
  · rintro ⟨_, h2⟩; have := h2 p hp; omega

theorem RStep.K {cfg w i th c st w' th' st'} (s : RStep cfg w i th c st w' th' st') (k : K cfg w)
    (hi : w.thr[i]? = some th) (hrem : w.rem c = some (i, st)) (hpc : th.pc = .remote c) : K cfg w' := by
  have free := k.unlocked_of_rem hrem
  have hcn := (k.rem c i st hrem).1
  -- threads of the new state
  have back : ∀ (j : Nat) (tj' : Thread), w'.thr[j]? = some tj' → (j = i ∧ tj' = th') ∨ (j ≠ i ∧ ∃ tj : Thread, w.thr[j]? = some tj ∧
      (tj' = tj.fix ∨ (tj' = tj ∧ (st'.fenced c → st.fenced c ∨ tj.cpu ≠ some c)))) := by
    intro j tj' h
    by_cases e : j = i
    · subst e; rw [s.me] at h; cases h; exact Or.inl ⟨rfl, rfl⟩
    · refine Or.inr ⟨e, ?_⟩
      have hl : j < w.thr.length := by
        rw [← s.len]; exact (List.getElem?_eq_some_iff.1 h).1
      have hj : w.thr[j]? = some w.thr[j] := List.getElem?_eq_getElem hl
      refine ⟨_, hj, ?_⟩
      rcases s.others j _ e hj with h' | ⟨h', h''⟩
      · rw [h] at h'; cases h'; exact Or.inl rfl
      · rw [h] at h'; cases h'; exact Or.inr ⟨rfl, h''⟩
  have fwd : ∀ (j : Nat) (tj : Thread), w.thr[j]? = some tj → ∃ tj' : Thread, w'.thr[j]? = some tj' ∧ tj'.cpu = tj.cpu ∧
      (∀ c', tj.pc = .remote c' → tj'.pc = .remote c') ∧ (tj.pc = .all → tj'.pc = .all) := by
    intro j tj h
    by_cases e : j = i
    · subst e; rw [hi] at h; cases h
      refine ⟨th', s.me, s.cpu, ?_, ?_⟩
      · intro c' hc'; rw [hpc] at hc'; cases hc'; exact s.pc
      · intro ha; rw [hpc] at ha; cases ha
    · rcases s.others j tj e h with h' | ⟨h', _⟩
      · exact ⟨_, h', rfl, fun c' hc' => by simp only [Thread.fix]; exact (restart_remote _ _).2 hc',
          fun hc' => by simp only [Thread.fix]; exact (restart_all _).2 hc'⟩
      · exact ⟨_, h', rfl, fun _ h => h, fun h => h⟩
  have cpus : ∀ (j : Nat) (tj' : Thread), w'.thr[j]? = some tj' → ∃ tj : Thread, w.thr[j]? = some tj ∧ tj'.cpu = tj.cpu := by
    intro j tj' h
    rcases back j tj' h with ⟨rfl, rfl⟩ | ⟨_, tj, h1, rfl | ⟨rfl, _⟩⟩
    · exact ⟨th, hi, s.cpu⟩
    · exact ⟨tj, h1, rfl⟩
    · exact ⟨_, h1, rfl⟩
  have nfi : ∀ c', NoFence w i c' → NoFence w' i c' := by
    intro c' nf o hf
    rcases hf with ⟨x, h1, h2⟩ | ⟨r, h1, h2⟩
    · rw [s.rem] at h1
      split at h1
      · cases h1; rfl
      · exact nf o (Or.inl ⟨x, h1, h2⟩)
    · rw [s.rs] at h1; exact nf o (Or.inr ⟨r, h1, h2⟩)
  have popm : ∀ c', w.populated c' = true → w'.populated c' = true := by
    intro c' h
    by_cases e : c' = c
    · subst e; exact s.popc h
    · rw [s.pop c' e]; exact h
  refine ⟨by rw [s.caps, s.lim]; exact k.fit, by rw [s.caps, s.begins]; exact k.beg, ?_, ?_, ?_, ?_, ?_, ?_, ?_, ?_, ?_, ?_⟩
  · intro c' hp
    rw [s.caps, s.begins, s.slabs]
    by_cases e : c' = c
    · subst e; exact s.reg hp
    · rw [s.pop c' e] at hp
      have r := k.reg c' hp
      have ho := s.mem w.slabs c' (by rintro ⟨_, e'⟩; exact e e')
      exact ⟨fun k hk => by rw [ho.1]; exact r.lo k hk, fun k hk => by rw [ho.1]; exact r.mid k hk,
        fun k hk => by rw [ho.1]; exact r.hi k hk, fun k hk => by rw [ho.2]; exact r.mark k hk,
        fun k hk x hx hx' => by rw [ho.2]; rw [ho.1] at hx'; exact r.objs k hk x hx hx'⟩
  · intro c' hp
    by_cases e : c' = c
    · subst e; exact hcn
    · rw [s.pop c' e] at hp; exact k.popn c' hp
  · intro a b ta tb x ha hb ha' hb'
    obtain ⟨t1, e1, c1⟩ := cpus a ta ha
    obtain ⟨t2, e2, c2⟩ := cpus b tb hb
    exact k.uniq a b t1 t2 x e1 e2 (c1 ▸ ha') (c2 ▸ hb')
  · intro a ta x ha ha'
    obtain ⟨t1, e1, c1⟩ := cpus a ta ha
    exact k.cpus a t1 x e1 (c1 ▸ ha')
  · intro j tj' h
    rcases back j tj' h with ⟨rfl, rfl⟩ | ⟨hne, tj, h1, hcase⟩
    · -- the owner
      have ok := k.thr j th hi
      unfold ThOK at ok ⊢
      rw [hpc] at ok
      rw [s.pc]
      simp only at ok ⊢
      obtain ⟨st0, h0, h2⟩ := ok
      rw [hrem] at h0; cases h0
      refine ⟨st', by rw [s.rem, if_pos rfl], ?_⟩
      rcases s.own with hn | ⟨o1, o2, o3⟩
      · split
        · exact Or.inl hn
        · exact Or.inl hn
      · have hv : ∀ v, th.cpu = some v → th.vcpu = v → tj'.vcpu = v := by
          intro v g1 g2
          rcases o3 with o3 | o3
          · rw [o3]; exact g2
          · rw [g1] at o3; injection o3 with o3; exact o3.symm
        have g1 : PtrGood w j th → PtrGood w' j tj' := by
          rintro (g | ⟨b, v, g, gg⟩)
          · exact Or.inl (o1.trans g)
          · exact Or.inr ⟨b, v, o1.trans g, s.cpu.trans gg.cpu, gg.slabs.trans s.slabs.symm, popm _ gg.pop,
              nfi _ gg.nf, hv v gg.cpu gg.vcpu, o2.trans gg.ret⟩
        have g2 : PtrW w j th c → PtrW w' j tj' c := by
          rintro (g | ⟨g, g1, g2, g3, g4⟩)
          · exact Or.inl (o1.trans g)
          · exact Or.inr ⟨by rw [o1, s.slabs]; exact g, s.cpu.trans g1, hv c g1 g2, o2.trans g3, nfi _ g4⟩
        rcases s.isPop with e | ⟨e1, e2, e3⟩
        · rw [e]
          split
          · rename_i e'; rw [if_pos e'] at h2; exact g2 h2
          · rename_i e'; rw [if_neg e'] at h2; exact g1 h2
        · rw [if_pos e1] at h2
          rw [if_neg (by rw [e2]; simp)]
          rcases g2 h2 with g | ⟨g, g1, g2, g3, g4⟩
          · exact Or.inl g
          · exact Or.inr ⟨_, _, g, g1, rfl, e3, g4, g2, g3⟩
    · have hrj : ∀ c', tj.pc = .remote c' → c' ≠ c := by
        rintro c' h2 rfl
        have ok := k.thr j tj h1
        unfold ThOK at ok
        rw [h2] at ok
        simp only at ok
        obtain ⟨st0, h0, _⟩ := ok
        rw [hrem] at h0; cases h0; exact hne rfl
      rcases hcase with rfl | ⟨rfl, hf⟩
      · refine (k.thr j tj h1).fixed rfl rfl ?_ ?_
        · intro c' h2
          rw [s.rem, if_neg (hrj c' h2)]
          have ok := k.thr j tj h1
          unfold ThOK at ok
          rw [h2] at ok
          exact ⟨_, ok.choose_spec.1⟩
        · intro h2
          rw [s.rs]
          have ok := k.thr j tj h1
          unfold ThOK at ok
          rw [h2] at ok
          exact ⟨_, ok.choose_spec.1⟩
      · refine (k.thr j _ h1).frame ?_ (fun c' h2 => by rw [s.rem, if_neg (hrj c' h2)]) (fun _ => s.rs)
        intro c' hc' nf
        have hnf : c' = c → ¬ st.fenced c := by
          rintro rfl hf'
          exact hne (nf i (Or.inl ⟨st, hrem, hf'⟩)).symm
        refine ⟨s.slabs, s.begins, s.caps, popm c', ?_, ?_, ?_⟩
        · intro o hfo
          rcases hfo with ⟨x, g1, g2⟩ | ⟨r, g1, g2⟩
          · rw [s.rem] at g1
            split at g1
            · rename_i e
              cases g1
              subst e
              rcases hf g2 with h' | h'
              · exact absurd h' (hnf rfl)
              · exact absurd hc' h'
            · exact nf o (Or.inl ⟨x, g1, g2⟩)
          · rw [s.rs] at g1; exact nf o (Or.inr ⟨r, g1, g2⟩)
        · by_cases e : c' = c
          · subst e
            rcases s.here with g | g
            · exact g.1
            · exact absurd g (hnf rfl)
          · exact (s.mem w.slabs c' (by rintro ⟨_, e'⟩; exact e e')).1
        · by_cases e : c' = c
          · subst e
            rcases s.here with g | g
            · exact g.2
            · exact absurd g (hnf rfl)
          · exact (s.mem w.slabs c' (by rintro ⟨_, e'⟩; exact e e')).2
  · intro j tj' h hoff
    rcases back j tj' h with ⟨rfl, rfl⟩ | ⟨_, tj, h1, rfl | ⟨rfl, _⟩⟩
    · have := k.off j th hi (s.cpu ▸ hoff)
      rcases s.own with e | ⟨e, _⟩
      · exact e
      · exact e.trans this
    · rfl
    · exact k.off j _ h1 hoff
  · intro c' a x e
    rw [s.rem] at e
    split at e
    · rename_i e'
      cases e
      subst e'
      exact ⟨hcn, ⟨th', s.me, s.pc⟩, s.stok⟩
    · rename_i e'
      obtain ⟨h1, ⟨t, h2, h3⟩, h4⟩ := k.rem c' a x e
      obtain ⟨t', f1, _, f3, _⟩ := fwd a t h2
      have ho := s.mem w.slabs c' (by rintro ⟨_, e''⟩; exact e' e'')
      exact ⟨h1, ⟨t', f1, f3 c' h3⟩, h4.frame s.slabs s.begins s.caps (s.pop c' e') ho.1 ho.2⟩
  · intro a r e
    rw [s.rs] at e
    obtain ⟨⟨t, h2, h3⟩, h4⟩ := k.rs a r e
    obtain ⟨t', f1, _, _, f4⟩ := fwd a t h2
    refine ⟨⟨t', f1, f4 h3⟩, h4.frame s.slabs (fun _ => Or.inr (allFree_post free e)) ?_ ?_⟩
    · intro c' hp
      by_cases e : c' = c
      · subst e; exact hcn
      · rw [s.pop c' e] at hp; exact k.popn c' hp
    · intro b' c' hb
      exact s.mem b' c' (by rintro ⟨e', _⟩; exact hb e')
  · intro hf
    have : w'.allFree = w.allFree := by unfold W.allFree; rw [s.rs]
    rw [this, free] at hf; cases hf
  · intro c' hc'
    by_cases e : c' = c
    · subst e
      rw [s.stopc]
      constructor
      · intro h; exact Or.inl ⟨i, st', by rw [s.rem, if_pos rfl], h⟩
      · rintro (⟨a, x, g1, g2⟩ | ⟨a, r, g1, g2⟩)
        · rw [s.rem, if_pos rfl] at g1; cases g1; exact g2
        · rw [s.rs] at g1; exact absurd g2 (k.rs_not_stops free g1 hc').1
    · rw [s.stopped c' e, s.rs, s.rem, if_neg e]
      exact k.stop c' hc'

/-- Lock: an idle thread or one in `Populate` takes the lock of CPU `c`; unlock; both keep the memory. -/
theorem K.owner {cfg w} (k : K cfg w) {i : Nat} {th : Thread} {c : Nat} {pc : PC} {x : Option RStage}
    (hi : w.thr[i]? = some th) (free : w.allFree = true) (hcn : c < cfg.n)
    (hnow : ∀ o st, w.rem c = some (o, st) → o = i ∧ st.stops = false)
    (hpc : ∀ c', th.pc = .remote c' → c' = c) (hpa : th.pc ≠ .all)
    (hx : ∀ st, x = some st → st.stops = false ∧ pc = .remote c ∧ StOK cfg w c st)
    (ok : ∀ w' : W, (∀ o, FencedBy w' c o → FencedBy w c o) → (∀ c' o, c' ≠ c → FencedBy w' c' o → FencedBy w c' o) →
      w'.slabs = w.slabs → w'.populated = w.populated → (∀ st, x = some st → w'.rem c = some (i, st)) →
      ThOK cfg w' i { th with pc := pc }) :
    K cfg { w.goto i th pc with rem := fun c' => if c' = c then x.map (fun st => (i, st)) else w.rem c' } := by
  have hsf : ∀ (st : RStage), st.stops = false → ¬ st.fenced c := by
    intro st h hf; cases st <;> simp [RStage.stops, RStage.fenced] at h hf
  have fb : ∀ c' o, FencedBy { w.goto i th pc with rem := fun c' => if c' = c then x.map (fun st => (i, st)) else w.rem c' } c' o →
      FencedBy w c' o := by
    intro c' o h
    rcases h with ⟨y, h1, h2⟩ | h
    · simp only at h1
      split at h1
      · rename_i e
        subst e
        cases hx' : x with
        | none => rw [hx'] at h1; cases h1
        | some st =>
          rw [hx'] at h1
          cases h1
          exact absurd h2 (hsf _ (hx _ hx').1)
      · exact Or.inl ⟨y, h1, h2⟩
    · exact Or.inr h
  have thr_cases : ∀ (j : Nat) (tx : Thread), (w.goto i th pc).thr[j]? = some tx →
      (j = i ∧ tx = { th with pc := pc }) ∨ (j ≠ i ∧ w.thr[j]? = some tx) := by
    intro j tx hx
    simp only [W.goto, W.set] at hx
    rw [set_get hi] at hx
    split at hx
    · rename_i e; cases hx; exact Or.inl ⟨e, rfl⟩
    · rename_i e; exact Or.inr ⟨e, hx⟩
  have other : ∀ (j : Nat) (tj : Thread), j ≠ i → w.thr[j]? = some tj → ∀ c', tj.pc = .remote c' → c' ≠ c := by
    rintro j tj hne h1 c' h2 rfl
    have o := k.thr j tj h1
    unfold ThOK at o
    rw [h2] at o
    simp only at o
    obtain ⟨st0, h0, _⟩ := o
    exact hne (hnow _ _ h0).1
  refine ⟨k.fit, k.beg, k.reg, k.popn, ?_, ?_, ?_, ?_, ?_, ?_, ?_, ?_⟩
  · intro a b ta tb y ha hb ha' hb'
    have key : ∀ (j : Nat) (tx : Thread), (w.goto i th pc).thr[j]? = some tx → tx.cpu = some y →
        ∃ t0, w.thr[j]? = some t0 ∧ t0.cpu = some y := by
      intro j tx hx hx'
      rcases thr_cases j tx hx with ⟨rfl, rfl⟩ | ⟨_, hx⟩
      · exact ⟨th, hi, hx'⟩
      · exact ⟨tx, hx, hx'⟩
    obtain ⟨t1, e1, c1⟩ := key a ta ha ha'
    obtain ⟨t2, e2, c2⟩ := key b tb hb hb'
    exact k.uniq a b t1 t2 y e1 e2 c1 c2
  · intro a ta y ha ha'
    rcases thr_cases a ta ha with ⟨rfl, rfl⟩ | ⟨_, hx⟩
    · exact k.cpus _ th y hi ha'
    · exact k.cpus a ta y hx ha'
  · intro a ta ha
    rcases thr_cases a ta ha with ⟨rfl, rfl⟩ | ⟨hne, h1⟩
    · exact ok _ (fun o => fb c o) (fun c' o _ => fb c' o) rfl rfl (fun st hst => by simp [hst])
    · refine (k.thr a ta h1).frame ?_ (fun c' h2 => ?_) (fun _ => rfl)
      · intro c' hc' nf
        exact ⟨rfl, rfl, rfl, id, fun o hf => nf o (fb c' o hf), fun _ => rfl, fun _ => rfl⟩
      · show (if c' = c then _ else w.rem c') = _
        rw [if_neg (other a ta hne h1 c' h2)]
  · intro a ta ha ha'
    rcases thr_cases a ta ha with ⟨rfl, rfl⟩ | ⟨hne, hx⟩
    · exact k.off _ th hi ha'
    · exact k.off a ta hx ha'
  · intro c' a y e
    simp only at e
    split at e
    · rename_i e'
      subst e'
      cases hx' : x with
      | none => rw [hx'] at e; cases e
      | some st =>
        rw [hx'] at e
        cases e
        obtain ⟨_, h2, h3⟩ := hx _ hx'
        refine ⟨hcn, ⟨{ th with pc := pc }, by simp [W.goto, W.set, set_get hi], h2⟩, ?_⟩
        exact h3.frame rfl rfl rfl rfl (fun _ => rfl) (fun _ => rfl)
    · rename_i e'
      obtain ⟨h1, ⟨t, h2, h3⟩, h4⟩ := k.rem c' a y e
      refine ⟨h1, ?_, h4.frame rfl rfl rfl rfl (fun _ => rfl) (fun _ => rfl)⟩
      by_cases ea : a = i
      · subst ea; rw [hi] at h2; cases h2; exact absurd (hpc c' h3) e'
      · exact ⟨t, by simp only [W.goto, W.set, set_get hi, if_neg ea]; exact h2, h3⟩
  · intro a r e
    obtain ⟨⟨t, h2, h3⟩, h4⟩ := k.rs a r e
    have ea : a ≠ i := by
      rintro rfl; rw [hi] at h2; cases h2; exact hpa h3
    exact ⟨⟨t, by simp only [W.goto, W.set, set_get hi, if_neg ea]; exact h2, h3⟩,
      h4.frame rfl (fun _ => Or.inl rfl) k.popn (fun _ _ _ => ⟨fun _ => rfl, fun _ => rfl⟩)⟩
  · intro hf
    have : w.allFree = false := hf
    rw [free] at this; cases this
  · intro c' hc'
    refine Iff.trans (k.stop c' hc') ?_
    show _ ↔ (∃ a st, (if c' = c then _ else w.rem c') = some (a, st) ∧ _) ∨ (∃ a r, w.rs = some (a, r) ∧ _)
    by_cases e : c' = c
    · subst e
      rw [if_pos rfl]
      constructor
      · rintro (⟨a, st, h1, h2⟩ | h)
        · have := (hnow a st h1).2; rw [this] at h2; cases h2
        · exact Or.inr h
      · rintro (⟨a, st, h1, h2⟩ | h)
        · cases hx' : x with
          | none => rw [hx'] at h1; cases h1
          | some y =>
            rw [hx'] at h1
            cases h1
            have := (hx _ hx').1; rw [this] at h2; cases h2
        · exact Or.inr h
    · rw [if_neg e]

end Verif.Slab
