import Verif.Slab.Inv
/-! General preservation lemmas: thread-local steps, writes inside a sequence, operations on a locked CPU. -/
namespace Verif.Slab

theorem set_get {w : W} {i : Nat} {th th' : Thread} (hi : w.thr[i]? = some th) (j : Nat) :
    (w.thr.set i th')[j]? = if j = i then some th' else w.thr[j]? := by
  rw [List.getElem?_set]
  by_cases e : i = j
  · subst e
    rw [if_pos rfl, if_pos rfl]
    have : i < w.thr.length := by
      rw [List.getElem?_eq_some_iff] at hi; exact hi.1
    rw [if_pos this]
  · rw [if_neg e, if_neg (fun h => e h.symm)]

/-- With the cached bit clear nothing is relied on. -/
theorem ThOK.fixed {cfg w w' j th} (h : ThOK cfg w j th) {th' : Thread} (hp : th'.ptr = .none)
    (hpc : th'.pc = th.pc.restart) (hr : ∀ c, th.pc = .remote c → ∃ st, w'.rem c = some (j, st))
    (hs : th.pc = .all → ∃ r, w'.rs = some (j, r)) : ThOK cfg w' j th' := by
  have g : PtrGood w' j th' := Or.inl hp
  have gw : ∀ v, PtrW w' j th' v := fun v => Or.inl hp
  have ne : ∀ {p : Prop}, (th'.ptr ≠ .none → p) := fun h => absurd hp h
  unfold ThOK at h ⊢
  rw [hpc]
  cases e : th.pc <;> rw [e] at h <;> simp only [PC.restart] at h ⊢
  case idle => exact g
  case push0 => exact ⟨h.1, h.2.1, g⟩
  case push1 => exact ⟨h.1, h.2.1, g⟩
  case push2 => exact ⟨h.1, h.2.1, g⟩
  case push3 => exact ⟨h.1, h.2.1, g⟩
  case push4 => exact ⟨h.1, h.2.1, g⟩
  case pop0 => exact ⟨h.1, g⟩
  case pop1 => exact ⟨h.1, g⟩
  case pop2 => exact ⟨h.1, g⟩
  case pop3 => exact ⟨h.1, g⟩
  case pop4 => exact ⟨h.1, g⟩
  case pushB0 => exact ⟨h.1, h.2.1, g⟩
  case pushB1 => exact ⟨h.1, h.2.1, g⟩
  case pushB2 => exact ⟨h.1, h.2.1, g⟩
  case pushB3 => exact ⟨h.1, h.2.1, g⟩
  case popB0 => exact ⟨h.1, h.2.1, g⟩
  case popB1 => exact ⟨h.1, h.2.1, g⟩
  case popB2 => exact ⟨h.1, h.2.1, g⟩
  case popB3 => exact ⟨h.1, h.2.1, g⟩
  case grow0 => exact ⟨h.1, g⟩
  case grow1 => exact ⟨h.1, g, ne⟩
  case grow2 => exact ⟨h.1, g, ne⟩
  case grow3 => exact ⟨h.1, g, ne⟩
  case grow4 => exact ⟨h.1, g, ne⟩
  case grow5 => exact ⟨h.1, g, ne⟩
  case cache2 => exact Or.inl hp
  case cache3 => exact ⟨h.1, Or.inl hp⟩
  case cache4 => exact ⟨h.1, Or.inl hp⟩
  case cache5 => exact ⟨h.1, Or.inl hp⟩
  case cache6 => exact ⟨h.1, Or.inl hp⟩
  case cache7 => exact ⟨h.1, Or.inl hp⟩
  case cache8 => exact ⟨h.1, gw _⟩
  case cache9 => exact ⟨h.1, gw _⟩
  case remote c =>
    obtain ⟨st, hst⟩ := hr c e
    refine ⟨st, hst, ?_⟩
    split
    · exact gw _
    · exact g
  case all =>
    obtain ⟨r, hr⟩ := hs e
    refine ⟨r, hr, ?_⟩
    split
    · exact g
    · exact hp

theorem StOK.frame {cfg} {w w' : W} {c st} (h : StOK cfg w c st) (hs : w'.slabs = w.slabs) (hb : w'.begins = w.begins)
    (hc : w'.caps = w.caps) (hp : w'.populated c = w.populated c)
    (hh : ∀ k, w'.mem.hdr w.slabs c k = w.mem.hdr w.slabs c k)
    (hw : ∀ i, w'.mem.slot w.slabs c i = w.mem.slot w.slabs c i) : StOK cfg w' c st := by
  have fr : Fresh cfg.nc w.caps w.mem w.slabs c → Fresh cfg.nc w'.caps w'.mem w'.slabs c := by
    intro f
    rw [hs, hc]
    exact ⟨fun k hk => by rw [hh]; exact f.hdr k hk, fun k hk => by rw [hw]; exact f.mark k hk⟩
  have gr : ∀ {k h n}, GrowOK w c k h n → GrowOK w' c k h n := by
    intro k h n g
    exact ⟨by rw [hs, hh]; exact g.cur, by rw [hs, hh]; exact g.fin, by rw [hb, hc]; exact g.le⟩
  cases st <;> simp only [StOK] at h ⊢ <;> (try rw [hp]) <;> (try rw [hb]) <;> (try rw [hs]) <;> (try rw [hh]) <;>
    (try exact h)
  case inited => exact ⟨h.1, by have := fr h.2; rwa [hs] at this⟩
  case started => exact ⟨h.1, by have := fr h.2; rwa [hs] at this⟩
  case go2 => exact ⟨h.1, h.2.1, gr h.2.2⟩

theorem PostOK.frame {cfg} {w w' : W} {p} (h : PostOK cfg w p) (hs : w'.slabs = w.slabs)
    (hp : ∀ c, w'.populated c = w.populated c ∨ p.unlocked = true)
    (hpn : ∀ c, w'.populated c = true → c < cfg.n)
    (hh : ∀ b c k, b ≠ w.slabs → w'.mem.hdr b c k = w.mem.hdr b c k) : PostOK cfg w' p := by
  refine ⟨h.le, h.ok, ?_, ?_, ?_, h.unl⟩
  · rw [hs]; exact h.ne
  · intro ob obeg ho c k hc hk hpd
    rw [hh _ _ _ (h.ne _ _ ho)]
    rcases hp c with e | e
    · exact h.pend ob obeg ho c k (by rw [← e]; exact hc) hk hpd
    · exfalso
      have h1 := (h.unl e).2
      have h2 := hpn c hc
      unfold Post.pending at hpd
      rw [decide_eq_true_eq] at hpd
      omega
  · intro ob obeg h' ho hst
    rw [hh _ _ _ (h.ne _ _ ho)]
    exact h.hand ob obeg h' ho hst

theorem RsOK.frame {cfg} {w w' : W} {r} (h : RsOK cfg w r) (hs : w'.slabs = w.slabs)
    (hp : ∀ c, w'.populated c = w.populated c ∨ ∃ p, r.post = some p ∧ p.unlocked = true)
    (hpn : ∀ c, w'.populated c = true → c < cfg.n)
    (hh : ∀ b c, b ≠ w.slabs → (∀ k, w'.mem.hdr b c k = w.mem.hdr b c k) ∧ ∀ i, w'.mem.slot b c i = w.mem.slot b c i) :
    RsOK cfg w' r := by
  refine ⟨h.stopd, h.initd, h.todo, ?_, ?_⟩
  · intro nb ncaps lim hpl hpo
    obtain ⟨h1, h2, h3⟩ := h.plan nb ncaps lim hpl hpo
    refine ⟨by rw [hs]; exact h1, h2, fun c hc hpc => ?_⟩
    have hpc' : w.populated c = true := by
      rcases hp c with e | ⟨p, e, _⟩
      · rw [← e]; exact hpc
      · rw [hpo] at e; exact absurd e (by simp)
    have f := h3 c hc hpc'
    exact ⟨fun k hk => by rw [(hh nb c h1).1]; exact f.hdr k hk, fun k hk => by rw [(hh nb c h1).2]; exact f.mark k hk⟩
  · intro p hpo
    obtain ⟨h1, h2⟩ := h.post p hpo
    refine ⟨h1, h2.frame hs (fun c => ?_) hpn (fun b c k hb => (hh b c hb).1 k)⟩
    rcases hp c with e | ⟨p', e, u⟩
    · exact Or.inl e
    · rw [hpo] at e; cases e; exact Or.inr u

theorem K.noFence_of {cfg w} (_ : K cfg w) {i : Nat} {th : Thread} (_ : w.thr[i]? = some th) {c : Nat}
    (nf : NoFence w i c) (hr : ∀ o st, w.rem c = some (o, st) → o ≠ i) (hs : ∀ o r, w.rs = some (o, r) → o ≠ i) (o : Nat) :
    ¬ FencedBy w c o := by
  intro h
  have := nf o h
  subst this
  rcases h with ⟨st, h, _⟩ | ⟨r, h, _⟩
  · exact hr _ _ h rfl
  · exact hs _ _ h rfl

theorem K.not_owner {cfg w} (k : K cfg w) {i : Nat} {th : Thread} (hi : w.thr[i]? = some th)
    (h1 : ∀ c, th.pc ≠ .remote c) (h2 : th.pc ≠ .all) :
    (∀ c o st, w.rem c = some (o, st) → o ≠ i) ∧ (∀ o r, w.rs = some (o, r) → o ≠ i) := by
  constructor
  · rintro c o st h rfl
    obtain ⟨_, ⟨th', e, e'⟩, _⟩ := k.rem c _ st h
    rw [hi] at e; cases e
    exact h1 c e'
  · rintro o r h rfl
    obtain ⟨⟨th', e, e'⟩, _⟩ := k.rs _ r h
    rw [hi] at e; cases e
    exact h2 e'

/-- A step that only changes thread `i` (and the objects outside). -/
theorem K.local {cfg w} (k : K cfg w) {i : Nat} {th th' : Thread} (hi : w.thr[i]? = some th) (ok : ThOK cfg w i th')
    (hc : th'.cpu = th.cpu) (hoff : th'.cpu = none → th'.ptr = .none) (hr : ∀ c, th.pc = .remote c → th'.pc = .remote c)
    (hs : th.pc = .all → th'.pc = .all) (h : List (Nat × Nat)) : K cfg { w.set i th' with held := h } := by
  have ag : ∀ j c, NoFence w j c → Agree w { w.set i th' with held := h } j c := fun j c nf =>
    ⟨rfl, rfl, rfl, id, nf, fun _ => rfl, fun _ => rfl⟩
  refine ⟨k.fit, k.beg, k.reg, k.popn, ?_, ?_, ?_, ?_, ?_, ?_, k.excl, k.stop⟩
  · intro a b ta tb c ha hb ha' hb'
    simp only [W.set] at ha hb
    rw [set_get hi] at ha hb
    have key : ∀ (x : Nat) (tx : Thread), (if x = i then some th' else w.thr[x]?) = some tx → tx.cpu = some c →
        ∃ t0, w.thr[x]? = some t0 ∧ t0.cpu = some c := by
      intro x tx hx hx'
      split at hx
      · rename_i e; cases hx; subst e; exact ⟨th, hi, hc ▸ hx'⟩
      · exact ⟨tx, hx, hx'⟩
    obtain ⟨t1, e1, c1⟩ := key a ta ha ha'
    obtain ⟨t2, e2, c2⟩ := key b tb hb hb'
    exact k.uniq a b t1 t2 c e1 e2 c1 c2
  · intro a ta c ha ha'
    simp only [W.set] at ha
    rw [set_get hi] at ha
    split at ha
    · cases ha; exact k.cpus i th c hi (hc ▸ ha')
    · exact k.cpus a ta c ha ha'
  · intro a ta ha
    simp only [W.set] at ha
    rw [set_get hi] at ha
    split at ha
    · rename_i e; cases ha; subst e
      exact ok.frame (fun c _ nf => ag _ c nf) (fun _ _ => rfl) (fun _ => rfl)
    · exact (k.thr a ta ha).frame (fun c _ nf => ag _ c nf) (fun _ _ => rfl) (fun _ => rfl)
  · intro a ta ha ha'
    simp only [W.set] at ha
    rw [set_get hi] at ha
    split at ha
    · cases ha; exact hoff ha'
    · exact k.off a ta ha ha'
  · intro c a st e
    obtain ⟨h1, ⟨t, h2, h3⟩, h4⟩ := k.rem c a st e
    refine ⟨h1, ?_, h4.frame rfl rfl rfl rfl (fun _ => rfl) (fun _ => rfl)⟩
    simp only [W.set, set_get hi]
    by_cases e' : a = i
    · subst e'; rw [hi] at h2; cases h2
      exact ⟨th', by simp, hr c h3⟩
    · exact ⟨t, by rw [if_neg e']; exact h2, h3⟩
  · intro a r e
    obtain ⟨⟨t, h2, h3⟩, h4⟩ := k.rs a r e
    refine ⟨?_, h4.frame rfl (fun _ => Or.inl rfl) k.popn (fun _ _ _ => ⟨fun _ => rfl, fun _ => rfl⟩)⟩
    simp only [W.set, set_get hi]
    by_cases e' : a = i
    · subst e'; rw [hi] at h2; cases h2
      exact ⟨th', by simp, hs h3⟩
    · exact ⟨t, by rw [if_neg e']; exact h2, h3⟩

/-- A write to the region of its CPU by a thread with a good pointer that is not in a remote operation. -/
theorem K.write {cfg w} (k : K cfg w) {i : Nat} {th th' : Thread} {c : Nat} (hi : w.thr[i]? = some th)
    (hcpu : th.cpu = some c) (hpop : w.populated c = true) (nf : NoFence w i c)
    (h1 : ∀ c, th.pc ≠ .remote c) (h2 : th.pc ≠ .all) (hc : th'.cpu = th.cpu) {m : Mem}
    (hoff : ∀ b' c', ¬ (b' = w.slabs ∧ c' = c) →
      (∀ k, m.hdr b' c' k = w.mem.hdr b' c' k) ∧ ∀ i, m.slot b' c' i = w.mem.slot b' c' i)
    (hreg : RegOK cfg.nc w.caps w.begins m w.slabs c) (h : List (Nat × Nat))
    (ok : ThOK cfg { w.set i th' with mem := m, held := h } i th') :
    K cfg { w.set i th' with mem := m, held := h } := by
  obtain ⟨no1, no2⟩ := k.not_owner hi h1 h2
  have hnf := k.noFence_of hi nf (no1 c) no2
  have thr_cases : ∀ (x : Nat) (tx : Thread), (w.set i th').thr[x]? = some tx →
      (x = i ∧ tx = th') ∨ (x ≠ i ∧ w.thr[x]? = some tx) := by
    intro x tx hx
    simp only [W.set] at hx
    rw [set_get hi] at hx
    split at hx
    · rename_i e; cases hx; exact Or.inl ⟨e, rfl⟩
    · rename_i e; exact Or.inr ⟨e, hx⟩
  refine ⟨k.fit, k.beg, ?_, k.popn, ?_, ?_, ?_, ?_, ?_, ?_, k.excl, k.stop⟩
  · intro c' hp
    by_cases e : c' = c
    · subst e; exact hreg
    · have r := k.reg c' hp
      have ho := hoff w.slabs c' (by rintro ⟨_, e'⟩; exact e e')
      exact ⟨fun k hk => by show _ ≤ (m.hdr w.slabs c' k).cur; rw [ho.1]; exact r.lo k hk,
        fun k hk => by show (m.hdr w.slabs c' k).cur ≤ (m.hdr w.slabs c' k).fin; rw [ho.1]; exact r.mid k hk,
        fun k hk => by show (m.hdr w.slabs c' k).fin ≤ _; rw [ho.1]; exact r.hi k hk,
        fun k hk => by show m.slot w.slabs c' _ % 2 = 1; rw [ho.2]; exact r.mark k hk,
        fun k hk x hx hx' => by
          show GoodObj (m.slot w.slabs c' x)
          rw [ho.2]
          exact r.objs k hk x hx (by have h' : x < (m.hdr w.slabs c' k).cur := hx'; rw [ho.1] at h'; exact h')⟩
  · intro a b ta tb c ha hb ha' hb'
    have key : ∀ (x : Nat) (tx : Thread), (w.set i th').thr[x]? = some tx → tx.cpu = some c →
        ∃ t0, w.thr[x]? = some t0 ∧ t0.cpu = some c := by
      intro x tx hx hx'
      rcases thr_cases x tx hx with ⟨rfl, rfl⟩ | ⟨_, hx⟩
      · exact ⟨th, hi, hc ▸ hx'⟩
      · exact ⟨tx, hx, hx'⟩
    obtain ⟨t1, e1, c1⟩ := key a ta ha ha'
    obtain ⟨t2, e2, c2⟩ := key b tb hb hb'
    exact k.uniq a b t1 t2 c e1 e2 c1 c2
  · intro a ta c ha ha'
    rcases thr_cases a ta ha with ⟨rfl, rfl⟩ | ⟨_, hx⟩
    · exact k.cpus _ th c hi (hc ▸ ha')
    · exact k.cpus a ta c hx ha'
  · intro a ta ha
    rcases thr_cases a ta ha with ⟨rfl, rfl⟩ | ⟨hne, hx⟩
    · exact ok
    · refine (k.thr a ta hx).frame (fun c' hc' nf' => ?_) (fun _ _ => rfl) (fun _ => rfl)
      have hcc : c' ≠ c := by
        rintro rfl
        exact hne (k.uniq a i ta th c' hx hi hc' hcpu)
      have ho := hoff w.slabs c' (by rintro ⟨_, e'⟩; exact hcc e')
      exact ⟨rfl, rfl, rfl, id, nf', ho.1, ho.2⟩
  · intro a ta ha ha'
    rcases thr_cases a ta ha with ⟨rfl, rfl⟩ | ⟨hne, hx⟩
    · rw [hc, hcpu] at ha'; exact absurd ha' (by simp)
    · exact k.off a ta hx ha'
  · intro c' a st e
    obtain ⟨g1, ⟨t, g2, g3⟩, g4⟩ := k.rem c' a st e
    have hai := no1 c' a st e
    refine ⟨g1, ⟨t, by simp only [W.set, set_get hi, if_neg hai]; exact g2, g3⟩, ?_⟩
    by_cases hcc : c' = c
    · subst hcc
      have nfs : ¬ st.fenced c' := fun f => hnf a (Or.inl ⟨st, e, f⟩)
      cases st <;> simp only [RStage.fenced, StOK] at nfs g4 ⊢ <;> first | exact absurd trivial nfs | exact g4 | skip
      rw [hpop] at g4; exact absurd g4.1 (by simp)
    · have ho := hoff w.slabs c' (by rintro ⟨_, e'⟩; exact hcc e')
      exact g4.frame rfl rfl rfl rfl ho.1 ho.2
  · intro a r e
    obtain ⟨⟨t, g2, g3⟩, g4⟩ := k.rs a r e
    have hai := no2 a r e
    refine ⟨⟨t, by simp only [W.set, set_get hi, if_neg hai]; exact g2, g3⟩, ?_⟩
    refine g4.frame rfl (fun _ => Or.inl rfl) k.popn (fun b' c' hb => hoff b' c' (by rintro ⟨e', _⟩; exact hb e'))

end Verif.Slab
