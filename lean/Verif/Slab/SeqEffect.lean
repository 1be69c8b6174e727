import Verif.Slab.Cells
/-! What the restartable sequences do to the cached objects and capacities. -/
namespace Verif.Slab

theorem Same.of_at {cfg} {w w' : W} (h : ∀ c k, c < cfg.n → Valid cfg.nc k → At w w' c k) : Same cfg w w' :=
  fun c k hc hk => (h c k hc hk).cell

theorem SameBut.of_at {cfg} {w w' : W} {c a : Nat}
    (h : ∀ c' k', ¬ (c' = c ∧ k' = a) → At w w' c' k') : SameBut cfg w w' c a :=
  fun c' k' _ _ hne => (h c' k' hne).cell

theorem Same.but {cfg} {w w' : W} (h : Same cfg w w') (c a : Nat) : SameBut cfg w w' c a :=
  fun c' k' h1 h2 _ => h c' k' h1 h2

theorem at_rfl {w w' : W} (hm : w'.mem = w.mem) (hs : w'.slabs = w.slabs) (hb : w'.begins = w.begins)
    (hp : w'.populated = w.populated) (hr : w'.rs = w.rs) (hrem : w'.rem = w.rem) (c k : Nat) : At w w' c k := by
  have hl := left_congr (w := w) (w' := w') (c := c) (k := k) (old_congr (by rw [hp]) hr) (by
    intro ob obeg _; rw [hm]; exact ⟨rfl, fun _ => rfl⟩)
  have hst := stack_congr (w := w) (w' := w') (c := c) (k := k) (by rw [hp]) hs (by rw [hb])
    (fun _ => eff_congr (by rw [hrem]) hs hb (by rw [hm])) (fun _ i _ _ => by rw [hm])
  exact ⟨hst.1, hst.2, hl.1, hl.2⟩

theorem same_rfl {cfg} {w w' : W} (hm : w'.mem = w.mem) (hs : w'.slabs = w.slabs) (hb : w'.begins = w.begins)
    (hp : w'.populated = w.populated) (hr : w'.rs = w.rs) (hrem : w'.rem = w.rem) : Same cfg w w' := by
  exact Same.of_at fun c k _ _ => at_rfl hm hs hb hp hr hrem c k

/-- What a store to a header by a sequence does. -/
structure Wrote (w w' : W) (c a : Nat) (h : Hdr) : Prop where
  rest : ∀ c' k', ¬ (c' = c ∧ k' = a) → At w w' c' k'
  left : w'.left c a = w.left c a
  leftCap : w'.leftCapacity c a = w.leftCapacity c a
  old : w.stack c a = w.mem.words w.slabs c (w.begins a) ((w.mem.hdr w.slabs c a).cur - w.begins a)
  oldCap : w.capacity c a = (w.mem.hdr w.slabs c a).fin - w.begins a
  new : w'.stack c a = w.mem.words w.slabs c (w.begins a) (h.cur - w.begins a)
  newCap : w'.capacity c a = h.fin - w.begins a

theorem setH_self (m : Mem) (b c a : Nat) (h : Hdr) : (m.setH b c a h).hdr b c a = h := by simp [Mem.setH]

theorem setH_ne (m : Mem) (b c a k : Nat) (h : Hdr) (e : k ≠ a) : (m.setH b c a h).hdr b c k = m.hdr b c k := by
  simp [Mem.setH, e]

theorem seq_write {cfg} {w w' : W} (k : K cfg w) {i : Nat} {th : Thread} {b c a : Nat} {h : Hdr}
    (hi : w.thr[i]? = some th) (g : Good w i th b c) (hpc : th.pc ≠ .remote c)
    (hm : w'.mem = w.mem.setH w.slabs c a h) (hs : w'.slabs = w.slabs) (hb : w'.begins = w.begins)
    (hp : w'.populated = w.populated) (hr : w'.rs = w.rs) (hrem : w'.rem = w.rem) : Wrote w w' c a h := by
  have e0 := k.eff_in hi g.nf hpc
  have e1 : ∀ k', w'.eff c k' = w'.mem.hdr w'.slabs c k' := by
    intro k'
    apply eff_none
    intro o st e
    rw [hrem] at e
    have key : st.fenced c → False := by
      intro hf
      have := g.nf o (Or.inl ⟨st, e, hf⟩)
      subst this
      obtain ⟨th', h1, h2⟩ := (k.rem c o st e).2.1
      rw [hi] at h1
      injection h1 with h1
      subst h1
      exact hpc h2
    constructor
    · rintro k beg rfl; exact key trivial
    · rintro k len n h rfl; exact key trivial
  obtain ⟨h1, h2⟩ := hdr_cells k hm hs hb hp hr (fun c' _ => by rw [hrem]) (by
    intro k' hne
    rw [e0, e1, hs, hm, setH_ne _ _ _ _ _ _ hne])
  refine ⟨h1, (h2 c a).1, (h2 c a).2, ?_, ?_, ?_, ?_⟩
  · unfold W.stack; rw [if_pos g.pop, e0]
  · unfold W.capacity; rw [if_pos g.pop, e0]
  · unfold W.stack
    rw [hp, if_pos g.pop, e1, hs, hm, setH_self, hb]
    rfl
  · unfold W.capacity
    rw [hp, if_pos g.pop, e1, hs, hm, setH_self, hb]

theorem Good.stack {cfg} {w : W} (k : K cfg w) {i : Nat} {th : Thread} {b c : Nat}
    (hi : w.thr[i]? = some th) (g : Good w i th b c) (hpc : th.pc ≠ .remote c) (a : Nat) :
    w.stack c a = w.mem.words w.slabs c (w.begins a) ((w.mem.hdr w.slabs c a).cur - w.begins a) ∧
    w.capacity c a = (w.mem.hdr w.slabs c a).fin - w.begins a := by
  unfold W.stack W.capacity
  rw [if_pos g.pop, if_pos g.pop, k.eff_in hi g.nf hpc]
  exact ⟨rfl, rfl⟩

theorem push_effect {cfg} {w w' : W} (k : K cfg w) {i : Nat} {th : Thread} {cpu : Nat} {pc : PC} {out : Out}
    (hi : w.thr[i]? = some th) (hcpu : th.cpu = some cpu) (hpc : th.pc = pc)
    (hp : match pc with | .push0 .. | .push1 .. | .push2 .. | .push3 .. | .push4 .. => True | _ => False)
    (h : stepPush w i th pc = some (w', out)) : Effect cfg w w' cpu th out := by
  have ok := k.thr i th hi
  unfold ThOK at ok
  rw [hpc] at ok
  have same : ∀ {w'' : W}, w''.mem = w.mem → w''.slabs = w.slabs → w''.begins = w.begins → w''.populated = w.populated →
      w''.rs = w.rs → w''.rem = w.rem → Same cfg w w'' := fun a b c d e f => same_rfl a b c d e f
  cases pc <;> try exact absurd hp id
  case push0 a o =>
    simp only [stepPush] at h
    split at h
    · injection h with h; injection h with h1 h2; subst h1 h2
      exact ⟨same rfl rfl rfl rfl rfl rfl, rfl⟩
    · cases h
    · rename_i hn
      injection h with h; injection h with h1 h2; subst h1 h2
      exact ⟨a, o, by rw [hpc]; rfl, by rw [hpc]; rfl, same rfl rfl rfl rfl rfl rfl, rfl, Or.inl hn⟩
  case push1 a o b c =>
    simp only [stepPush] at h
    injection h with h; injection h with h1 h2; subst h1 h2
    exact ⟨same rfl rfl rfl rfl rfl rfl, rfl⟩
  case push2 a o b c cur =>
    obtain ⟨hv, ho, g, e⟩ := ok
    have gb := g.2.slabs
    have hc : cpu = c := by have := g.2.cpu; rw [hcpu] at this; injection this
    subst hc gb
    have r := k.reg _ g.2.pop
    simp only [stepPush] at h
    split at h
    · rename_i hfull
      injection h with h; injection h with h1 h2; subst h1 h2
      refine ⟨a, o, by rw [hpc]; rfl, by rw [hpc]; rfl, same rfl rfl rfl rfl rfl rfl, rfl, Or.inr ?_⟩
      obtain ⟨s1, s2⟩ := g.2.stack k hi (by rw [hpc]; exact fun h => by cases h) a
      rw [s1, s2, words_length]
      have := r.mid a hv
      omega
    · injection h with h; injection h with h1 h2; subst h1 h2
      exact ⟨same rfl rfl rfl rfl rfl rfl, rfl⟩
  case push3 a o b c cur =>
    obtain ⟨hv, ho, g, e, e2⟩ := ok
    have gb := g.2.slabs
    subst gb
    simp only [stepPush] at h
    injection h with h; injection h with h1 h2; subst h1 h2
    have := slot_cells (v := o) (w' := { w.goto i th (.push4 a o w.slabs c cur) with mem := w.mem.setS w.slabs c cur o })
      k hv g.2.pop (Nat.le_of_eq e.symm) e2 rfl rfl rfl rfl rfl rfl
    exact ⟨Same.of_at fun c' k' _ hk' => this c' k' hk', rfl⟩
  case push4 a o b c cur =>
    obtain ⟨hv, ho, g, e, e2, e3⟩ := ok
    have gb := g.2.slabs
    have hc : cpu = c := by have := g.2.cpu; rw [hcpu] at this; injection this
    subst hc gb
    have r := k.reg _ g.2.pop
    have h1 := r.lo a hv
    have h2 := r.hi a hv
    have h3 := begins_end k hv
    simp only [stepPush] at h
    injection h with h; injection h with h1' h2'; subst h1' h2'
    have wr := seq_write (w' := { w.goto i th .idle with mem := w.mem.setH w.slabs cpu a ⟨(cur + 1) % 65536, (w.mem.hdr w.slabs cpu a).fin⟩ })
      k hi g.2 (by rw [hpc]; exact fun h => by cases h) rfl rfl rfl rfl rfl rfl
    have hst : ({ w.goto i th .idle with mem := w.mem.setH w.slabs cpu a ⟨(cur + 1) % 65536, (w.mem.hdr w.slabs cpu a).fin⟩ } : W).stack cpu a =
        w.stack cpu a ++ [o] := by
      rw [wr.new, wr.old]
      show w.mem.words w.slabs cpu (w.begins a) ((cur + 1) % 65536 - w.begins a) = _
      rw [Nat.mod_eq_of_lt (by omega), show cur + 1 - w.begins a = (w.mem.hdr w.slabs cpu a).cur - w.begins a + 1 by omega,
        words_append, words_one, show w.begins a + ((w.mem.hdr w.slabs cpu a).cur - w.begins a) = cur by omega, e3]
    have hcap : ({ w.goto i th .idle with mem := w.mem.setH w.slabs cpu a ⟨(cur + 1) % 65536, (w.mem.hdr w.slabs cpu a).fin⟩ } : W).capacity cpu a =
        w.capacity cpu a := by
      rw [wr.newCap, wr.oldCap]
    refine ⟨a, o, by rw [hpc]; rfl, by rw [hpc]; rfl, SameBut.of_at wr.rest, rfl, ?_, hst, ?_⟩
    · unfold W.cell; rw [wr.left, hst, List.append_assoc]
    · unfold W.space; rw [wr.leftCap, hcap]

theorem pop_effect {cfg} {w w' : W} (k : K cfg w) {i : Nat} {th : Thread} {cpu : Nat} {pc : PC} {out : Out}
    (hi : w.thr[i]? = some th) (hcpu : th.cpu = some cpu) (hpc : th.pc = pc)
    (hp : match pc with | .pop0 .. | .pop1 .. | .pop2 .. | .pop3 .. | .pop4 .. => True | _ => False)
    (h : stepPop w i th pc = some (w', out)) : Effect cfg w w' cpu th out := by
  have ok := k.thr i th hi
  unfold ThOK at ok
  rw [hpc] at ok
  have same : ∀ {w'' : W}, w''.mem = w.mem → w''.slabs = w.slabs → w''.begins = w.begins → w''.populated = w.populated →
      w''.rs = w.rs → w''.rem = w.rem → Same cfg w w'' := fun a b c d e f => same_rfl a b c d e f
  cases pc <;> try exact absurd hp id
  case pop0 a =>
    simp only [stepPop] at h
    split at h
    · injection h with h; injection h with h1 h2; subst h1 h2
      exact ⟨same rfl rfl rfl rfl rfl rfl, rfl⟩
    · cases h
    · rename_i hn
      injection h with h; injection h with h1 h2; subst h1 h2
      exact ⟨a, by rw [hpc]; rfl, same rfl rfl rfl rfl rfl rfl, rfl, Or.inl hn⟩
  case pop1 a b c =>
    simp only [stepPop] at h
    injection h with h; injection h with h1 h2; subst h1 h2
    exact ⟨same rfl rfl rfl rfl rfl rfl, rfl⟩
  case pop2 a b c cur =>
    obtain ⟨hv, g, e⟩ := ok
    have gb := g.2.slabs
    have hc : cpu = c := by have := g.2.cpu; rw [hcpu] at this; injection this
    subst hc gb
    have r := k.reg _ g.2.pop
    simp only [stepPop] at h
    split at h
    · cases h
    · split at h
      · rename_i hodd
        injection h with h; injection h with h1 h2; subst h1 h2
        refine ⟨a, by rw [hpc]; rfl, same rfl rfl rfl rfl rfl rfl, rfl, Or.inr ?_⟩
        obtain ⟨s1, s2⟩ := g.2.stack k hi (by rw [hpc]; exact fun h => by cases h) a
        rw [s1]
        by_cases hlt : w.begins a < cur
        · have := (r.objs a hv (cur - 1) (by omega) (by omega)).2
          omega
        · rw [show (w.mem.hdr w.slabs cpu a).cur - w.begins a = 0 by omega]
          rfl
      · injection h with h; injection h with h1 h2; subst h1 h2
        exact ⟨same rfl rfl rfl rfl rfl rfl, rfl⟩
  case pop3 a b c cur res =>
    simp only [stepPop] at h
    split at h
    · cases h
    · injection h with h; injection h with h1 h2; subst h1 h2
      exact ⟨same rfl rfl rfl rfl rfl rfl, rfl⟩
  case pop4 a b c cur res =>
    obtain ⟨hv, g, e, e2, e3⟩ := ok
    have gb := g.2.slabs
    have hc : cpu = c := by have := g.2.cpu; rw [hcpu] at this; injection this
    subst hc gb
    have r := k.reg _ g.2.pop
    simp only [stepPop] at h
    split at h
    · cases h
    · injection h with h; injection h with h1' h2'; subst h2'
      have fl : w'.mem = w.mem.setH w.slabs cpu a ⟨cur - 1, (w.mem.hdr w.slabs cpu a).fin⟩ ∧ w'.slabs = w.slabs ∧
          w'.begins = w.begins ∧ w'.populated = w.populated ∧ w'.rs = w.rs ∧ w'.rem = w.rem ∧ w'.held = (a, res) :: w.held := by
        subst h1'; exact ⟨rfl, rfl, rfl, rfl, rfl, rfl, rfl⟩
      obtain ⟨f1, f2, f3, f4, f5, f6, f7⟩ := fl
      have wr := seq_write k hi g.2 (by rw [hpc]; exact fun h => by cases h) f1 f2 f3 f4 f5 f6
      have hst : w.stack cpu a = w'.stack cpu a ++ [res] := by
        rw [wr.new, wr.old]
        show _ = w.mem.words w.slabs cpu (w.begins a) (cur - 1 - w.begins a) ++ _
        rw [show (w.mem.hdr w.slabs cpu a).cur - w.begins a = cur - 1 - w.begins a + 1 by omega, words_append, words_one,
          show w.begins a + (cur - 1 - w.begins a) = cur - 1 by omega, e3]
      have hcap : w'.capacity cpu a = w.capacity cpu a := by rw [wr.newCap, wr.oldCap]
      refine ⟨a, by rw [hpc]; rfl, SameBut.of_at wr.rest, f7, ?_, hst, ?_⟩
      · unfold W.cell; rw [wr.left, hst, List.append_assoc]
      · unfold W.space; rw [wr.leftCap, hcap]

theorem pushB_effect {cfg} {w w' : W} (k : K cfg w) {i : Nat} {th : Thread} {cpu : Nat} {pc : PC} {out : Out}
    (hi : w.thr[i]? = some th) (hcpu : th.cpu = some cpu) (hpc : th.pc = pc)
    (hp : match pc with | .pushB0 .. | .pushB1 .. | .pushB2 .. | .pushB3 .. => True | _ => False)
    (h : stepPushB w i th pc = some (w', out)) : Effect cfg w w' cpu th out := by
  have ok := k.thr i th hi
  unfold ThOK at ok
  rw [hpc] at ok
  have same : ∀ {w'' : W}, w''.mem = w.mem → w''.slabs = w.slabs → w''.begins = w.begins → w''.populated = w.populated →
      w''.rs = w.rs → w''.rem = w.rem → Same cfg w w'' ∧ ∀ c k, At w w'' c k :=
    fun a b c d e f => ⟨same_rfl a b c d e f, fun c' k' => at_rfl a b c d e f c' k'⟩
  cases pc <;> try exact absurd hp id
  case pushB0 a l =>
    simp only [stepPushB] at h
    split at h
    · injection h with h; injection h with h1 h2; subst h1 h2
      exact ⟨(same rfl rfl rfl rfl rfl rfl).1, rfl⟩
    · cases h
    · rename_i hn
      injection h with h; injection h with h1 h2; subst h2
      have fl : w'.mem = w.mem ∧ w'.slabs = w.slabs ∧
          w'.begins = w.begins ∧ w'.populated = w.populated ∧ w'.rs = w.rs ∧ w'.rem = w.rem ∧
          w'.held = l.map (fun o => (a, o)) ++ w.held := by
        subst h1; exact ⟨rfl, rfl, rfl, rfl, rfl, rfl, rfl⟩
      obtain ⟨f1, f2, f3, f4, f5, f6, f7⟩ := fl
      obtain ⟨s1, s2⟩ := same f1 f2 f3 f4 f5 f6
      refine ⟨a, l, by rw [hpc]; rfl, by rw [hpc]; rfl, s1.but _ _, ?_, (s2 cpu a).cell.2, ?_, ?_, Or.inl ⟨hn, rfl⟩⟩
      · rw [f7]; simp
      · rw [(s2 cpu a).cell.1]; simp
      · rw [(s2 cpu a).stack]; simp
  case pushB1 a l b c =>
    simp only [stepPushB] at h
    injection h with h; injection h with h1 h2; subst h1 h2
    exact ⟨(same rfl rfl rfl rfl rfl rfl).1, rfl⟩
  case pushB2 a l b c cur =>
    obtain ⟨hv, ho, g, e⟩ := ok
    have gb := g.2.slabs
    have hc : cpu = c := by have := g.2.cpu; rw [hcpu] at this; injection this
    subst hc gb
    have r := k.reg _ g.2.pop
    simp only [stepPushB] at h
    split at h
    · rename_i hfull
      injection h with h; injection h with h1 h2; subst h2
      have fl : w'.mem = w.mem ∧ w'.slabs = w.slabs ∧
          w'.begins = w.begins ∧ w'.populated = w.populated ∧ w'.rs = w.rs ∧ w'.rem = w.rem ∧
          w'.held = l.map (fun o => (a, o)) ++ w.held := by
        subst h1; exact ⟨rfl, rfl, rfl, rfl, rfl, rfl, rfl⟩
      obtain ⟨f1, f2, f3, f4, f5, f6, f7⟩ := fl
      obtain ⟨s1, s2⟩ := same f1 f2 f3 f4 f5 f6
      refine ⟨a, l, by rw [hpc]; rfl, by rw [hpc]; rfl, s1.but _ _, ?_, (s2 cpu a).cell.2, ?_, ?_, Or.inr ?_⟩
      · rw [f7]; simp
      · rw [(s2 cpu a).cell.1]; simp
      · rw [(s2 cpu a).stack]; simp
      · obtain ⟨s1, s2⟩ := g.2.stack k hi (by rw [hpc]; exact fun h => by cases h) a
        rw [s1, s2, words_length]
        have := r.mid a hv
        omega
    · injection h with h; injection h with h1 h2; subst h1 h2
      exact ⟨(same rfl rfl rfl rfl rfl rfl).1, rfl⟩
  case pushB3 a l b c cur m j =>
    obtain ⟨hv, ho, g, e, e2, e3, e4, e5⟩ := ok
    have gb := g.2.slabs
    have hc : cpu = c := by have := g.2.cpu; rw [hcpu] at this; injection this
    subst hc gb
    have r := k.reg _ g.2.pop
    have h1 := r.lo a hv
    have h2 := r.hi a hv
    have h3 := begins_end k hv
    simp only [stepPushB] at h
    split at h
    · split at h
      · cases h
      · rename_i hjm o ho'
        injection h with h; injection h with h1' h2'; subst h2'
        have fl : w'.mem = w.mem.setS w.slabs cpu (cur + j) o ∧ w'.slabs = w.slabs ∧
            w'.begins = w.begins ∧ w'.populated = w.populated ∧ w'.rs = w.rs ∧ w'.rem = w.rem ∧ w'.held = w.held := by
          subst h1'; exact ⟨rfl, rfl, rfl, rfl, rfl, rfl, rfl⟩
        obtain ⟨f1, f2, f3, f4, f5, f6, f7⟩ := fl
        have := slot_cells k hv g.2.pop (p := cur + j) (by omega) (by omega) f1 f2 f3 f4 f5 f6
        exact ⟨Same.of_at fun c' k' _ hk' => this c' k' hk', f7⟩
    · rename_i hjm
      have hjm : j = m := by omega
      subst hjm
      injection h with h; injection h with h1' h2'; subst h2'
      have fl : w'.mem = w.mem.setH w.slabs cpu a ⟨(cur + j) % 65536, (w.mem.hdr w.slabs cpu a).fin⟩ ∧ w'.slabs = w.slabs ∧
          w'.begins = w.begins ∧ w'.populated = w.populated ∧ w'.rs = w.rs ∧ w'.rem = w.rem ∧
          w'.held = (l.take (l.length - j)).map (fun o => (a, o)) ++ w.held := by
        subst h1'; exact ⟨rfl, rfl, rfl, rfl, rfl, rfl, rfl⟩
      obtain ⟨f1, f2, f3, f4, f5, f6, f7⟩ := fl
      have wr := seq_write k hi g.2 (by rw [hpc]; exact fun h => by cases h) f1 f2 f3 f4 f5 f6
      have hw : w.mem.words w.slabs cpu cur j = (l.drop (l.length - j)).reverse := by
        apply List.ext_getElem?
        intro x
        by_cases hx : x < j
        · rw [List.getElem?_reverse (by rw [List.length_drop]; omega), List.getElem?_drop, List.length_drop,
            show l.length - j + (l.length - (l.length - j) - 1 - x) = l.length - 1 - x by omega, e5 x hx]
          simp [Mem.words, hx]
        · rw [List.getElem?_eq_none (by rw [words_length]; omega),
            List.getElem?_eq_none (by rw [List.length_reverse, List.length_drop]; omega)]
      have hst : w'.stack cpu a = w.stack cpu a ++ (l.drop (l.length - j)).reverse := by
        rw [wr.new, wr.old]
        show w.mem.words w.slabs cpu (w.begins a) ((cur + j) % 65536 - w.begins a) = _
        rw [Nat.mod_eq_of_lt (by omega), show cur + j - w.begins a = (w.mem.hdr w.slabs cpu a).cur - w.begins a + j by omega,
          words_append, show w.begins a + ((w.mem.hdr w.slabs cpu a).cur - w.begins a) = cur by omega, hw]
      have hcap : w'.capacity cpu a = w.capacity cpu a := by rw [wr.newCap, wr.oldCap]
      refine ⟨a, l, by rw [hpc]; rfl, by rw [hpc]; rfl, SameBut.of_at wr.rest, f7, ?_, ?_, hst, Or.inr ?_⟩
      · unfold W.space; rw [wr.leftCap, hcap]
      · unfold W.cell; rw [wr.left, hst, List.append_assoc]
      · rw [wr.old, wr.oldCap, words_length]
        omega

theorem popB_effect {cfg} {w w' : W} (k : K cfg w) {i : Nat} {th : Thread} {cpu : Nat} {pc : PC} {out : Out}
    (hi : w.thr[i]? = some th) (hcpu : th.cpu = some cpu) (hpc : th.pc = pc)
    (hp : match pc with | .popB0 .. | .popB1 .. | .popB2 .. | .popB3 .. => True | _ => False)
    (h : stepPopB w i th pc = some (w', out)) : Effect cfg w w' cpu th out := by
  have ok := k.thr i th hi
  unfold ThOK at ok
  rw [hpc] at ok
  have same : ∀ {w'' : W}, w''.mem = w.mem → w''.slabs = w.slabs → w''.begins = w.begins → w''.populated = w.populated →
      w''.rs = w.rs → w''.rem = w.rem → Same cfg w w'' ∧ ∀ c k, At w w'' c k :=
    fun a b c d e f => ⟨same_rfl a b c d e f, fun c' k' => at_rfl a b c d e f c' k'⟩
  cases pc <;> try exact absurd hp id
  case popB0 a n =>
    simp only [stepPopB] at h
    split at h
    · injection h with h; injection h with h1 h2; subst h1 h2
      exact ⟨(same rfl rfl rfl rfl rfl rfl).1, rfl⟩
    · cases h
    · rename_i hn
      injection h with h; injection h with h1 h2; subst h2
      have fl : w'.mem = w.mem ∧ w'.slabs = w.slabs ∧
          w'.begins = w.begins ∧ w'.populated = w.populated ∧ w'.rs = w.rs ∧ w'.rem = w.rem ∧
          w'.held = w.held := by
        subst h1; exact ⟨rfl, rfl, rfl, rfl, rfl, rfl, rfl⟩
      obtain ⟨f1, f2, f3, f4, f5, f6, f7⟩ := fl
      obtain ⟨s1, s2⟩ := same f1 f2 f3 f4 f5 f6
      refine ⟨a, by rw [hpc]; rfl, s1.but _ _, ?_, (s2 cpu a).cell.2, ?_, ?_, Or.inl ⟨hn, rfl⟩⟩
      · rw [f7]; rfl
      · rw [(s2 cpu a).cell.1]; simp
      · rw [(s2 cpu a).stack]; simp
  case popB1 a n b c =>
    simp only [stepPopB] at h
    injection h with h; injection h with h1 h2; subst h1 h2
    exact ⟨(same rfl rfl rfl rfl rfl rfl).1, rfl⟩
  case popB2 a n b c cur =>
    obtain ⟨hv, ho, g, e⟩ := ok
    have gb := g.2.slabs
    have hc : cpu = c := by have := g.2.cpu; rw [hcpu] at this; injection this
    subst hc gb
    have r := k.reg _ g.2.pop
    simp only [stepPopB] at h
    split at h
    · rename_i hfull
      injection h with h; injection h with h1 h2; subst h2
      have fl : w'.mem = w.mem ∧ w'.slabs = w.slabs ∧
          w'.begins = w.begins ∧ w'.populated = w.populated ∧ w'.rs = w.rs ∧ w'.rem = w.rem ∧
          w'.held = w.held := by
        subst h1; exact ⟨rfl, rfl, rfl, rfl, rfl, rfl, rfl⟩
      obtain ⟨f1, f2, f3, f4, f5, f6, f7⟩ := fl
      obtain ⟨s1, s2⟩ := same f1 f2 f3 f4 f5 f6
      refine ⟨a, by rw [hpc]; rfl, s1.but _ _, ?_, (s2 cpu a).cell.2, ?_, ?_, Or.inr ?_⟩
      · rw [f7]; rfl
      · rw [(s2 cpu a).cell.1]; simp
      · rw [(s2 cpu a).stack]; simp
      · obtain ⟨s1, s2⟩ := g.2.stack k hi (by rw [hpc]; exact fun h => by cases h) a
        rw [s1, words_length]
        show 0 = _
        omega
    · injection h with h; injection h with h1 h2; subst h1 h2
      exact ⟨(same rfl rfl rfl rfl rfl rfl).1, rfl⟩
  case popB3 a n b c cur m got =>
    obtain ⟨hv, ho, g, e, e2, e3, e4, e5⟩ := ok
    have gb := g.2.slabs
    have hc : cpu = c := by have := g.2.cpu; rw [hcpu] at this; injection this
    subst hc gb
    have r := k.reg _ g.2.pop
    have h1 := r.lo a hv
    have h2 := r.hi a hv
    have h3 := begins_end k hv
    simp only [stepPopB] at h
    split at h
    · split at h
      · cases h
      · injection h with h; injection h with h1 h2; subst h1 h2
        exact ⟨(same rfl rfl rfl rfl rfl rfl).1, rfl⟩
    · rename_i hjm
      have hjm : got.length = m := by omega
      subst hjm
      injection h with h; injection h with h1' h2'; subst h2'
      have fl : w'.mem = w.mem.setH w.slabs cpu a ⟨cur - got.length, (w.mem.hdr w.slabs cpu a).fin⟩ ∧ w'.slabs = w.slabs ∧
          w'.begins = w.begins ∧ w'.populated = w.populated ∧ w'.rs = w.rs ∧ w'.rem = w.rem ∧
          w'.held = got.map (fun o => (a, o)) ++ w.held := by
        subst h1'; exact ⟨rfl, rfl, rfl, rfl, rfl, rfl, rfl⟩
      obtain ⟨f1, f2, f3, f4, f5, f6, f7⟩ := fl
      have wr := seq_write k hi g.2 (by rw [hpc]; exact fun h => by cases h) f1 f2 f3 f4 f5 f6
      have hw : w.mem.words w.slabs cpu (cur - got.length) got.length = got.reverse := by
        apply List.ext_getElem?
        intro x
        by_cases hx : x < got.length
        · rw [List.getElem?_reverse hx]
          have e6 := congrArg (fun l : List Nat => l[got.length - 1 - x]?) e5
          simp only [List.getElem?_map, List.getElem?_range (show got.length - 1 - x < got.length by omega), Option.map_some] at e6
          rw [e6]
          simp [Mem.words, hx]
          congr 1
          omega
        · rw [List.getElem?_eq_none (by rw [words_length]; omega),
            List.getElem?_eq_none (by rw [List.length_reverse]; omega)]
      have hst : w.stack cpu a = w'.stack cpu a ++ got.reverse := by
        rw [wr.new, wr.old]
        show _ = w.mem.words w.slabs cpu (w.begins a) (cur - got.length - w.begins a) ++ _
        rw [show (w.mem.hdr w.slabs cpu a).cur - w.begins a = cur - got.length - w.begins a + got.length by omega,
          words_append, show w.begins a + (cur - got.length - w.begins a) = cur - got.length by omega, hw]
      have hcap : w'.capacity cpu a = w.capacity cpu a := by rw [wr.newCap, wr.oldCap]
      refine ⟨a, by rw [hpc]; rfl, SameBut.of_at wr.rest, f7, ?_, ?_, hst, Or.inr ?_⟩
      · unfold W.space; rw [wr.leftCap, hcap]
      · unfold W.cell; rw [wr.left, hst, List.append_assoc]
      · rw [wr.old, words_length, hpc]
        show _ = min n _
        omega

theorem grow_effect {cfg} {w w' : W} (k : K cfg w) {i : Nat} {th : Thread} {cpu : Nat} {pc : PC} {out : Out} {ch : Ch}
    (hi : w.thr[i]? = some th) (hcpu : th.cpu = some cpu) (hpc : th.pc = pc)
    (hp : match pc with | .grow0 .. | .grow1 .. | .grow2 .. | .grow3 .. | .grow4 .. | .grow5 .. => True | _ => False)
    (h : stepGrow w i th ch pc = some (w', out)) : Effect cfg w w' cpu th out := by
  have ok := k.thr i th hi
  unfold ThOK at ok
  rw [hpc] at ok
  have same : ∀ {w'' : W}, w''.mem = w.mem → w''.slabs = w.slabs → w''.begins = w.begins → w''.populated = w.populated →
      w''.rs = w.rs → w''.rem = w.rem → Same cfg w w'' ∧ ∀ c k, At w w'' c k :=
    fun a b c d e f => ⟨same_rfl a b c d e f, fun c' k' => at_rfl a b c d e f c' k'⟩
  cases pc <;> try exact absurd hp id
  case grow0 a len =>
    simp only [stepGrow] at h
    injection h with h; injection h with h1 h2; subst h1 h2
    exact ⟨(same rfl rfl rfl rfl rfl rfl).1, rfl⟩
  case grow1 a len b =>
    simp only [stepGrow] at h
    injection h with h; injection h with h1 h2; subst h1 h2
    exact ⟨(same rfl rfl rfl rfl rfl rfl).1, rfl⟩
  case grow2 a len b mx =>
    simp only [stepGrow] at h
    injection h with h; injection h with h1 h2; subst h1 h2
    exact ⟨(same rfl rfl rfl rfl rfl rfl).1, rfl⟩
  case grow3 a len b mx hd =>
    simp only [stepGrow] at h
    split at h
    · injection h with h; injection h with h1 h2; subst h1 h2
      exact ⟨a, by rw [hpc]; rfl, (same rfl rfl rfl rfl rfl rfl).1.but _ _, rfl,
        ((same rfl rfl rfl rfl rfl rfl).2 cpu a).cell.1, ((same rfl rfl rfl rfl rfl rfl).2 cpu a).cell.2, Nat.zero_le _⟩
    · injection h with h; injection h with h1 h2; subst h1 h2
      exact ⟨(same rfl rfl rfl rfl rfl rfl).1, rfl⟩
  case grow4 a len b hd n =>
    simp only [stepGrow] at h
    split at h
    · injection h with h; injection h with h1 h2; subst h1 h2
      exact ⟨a, by rw [hpc]; rfl, (same rfl rfl rfl rfl rfl rfl).1.but _ _, rfl,
        ((same rfl rfl rfl rfl rfl rfl).2 cpu a).cell.1, ((same rfl rfl rfl rfl rfl rfl).2 cpu a).cell.2, Nat.zero_le _⟩
    · injection h with h; injection h with h1 h2; subst h1 h2
      exact ⟨(same rfl rfl rfl rfl rfl rfl).1, rfl⟩
  case grow5 a len b hd n =>
    obtain ⟨⟨hv, hl⟩, g, hne, e, e2⟩ := ok
    subst e
    rcases g with g | ⟨b, c, _, g⟩
    · exact absurd g hne
    have hc : cpu = c := by have := g.cpu; rw [hcpu] at this; injection this
    have hret := g.ret
    subst hc
    have r := k.reg _ g.pop
    have hlo := r.lo a hv
    have hmid := r.mid a hv
    simp only [stepGrow] at h
    injection h with h; injection h with h1' h2'; subst h2'
    have fl : w'.mem = w.mem.setH w.slabs cpu a hd ∧ w'.slabs = w.slabs ∧
        w'.begins = w.begins ∧ w'.populated = w.populated ∧ w'.rs = w.rs ∧ w'.rem = w.rem ∧
        w'.held = w.held := by
      subst h1'; exact ⟨by rw [← hret], rfl, rfl, rfl, rfl, rfl, rfl⟩
    obtain ⟨f1, f2, f3, f4, f5, f6, f7⟩ := fl
    have wr := seq_write k hi g (by rw [hpc]; exact fun h => by cases h) f1 f2 f3 f4 f5 f6
    have q1 := e2.cur
    have q2 := e2.fin
    rw [hret] at q1 q2
    refine ⟨a, by rw [hpc]; rfl, SameBut.of_at wr.rest, f7, ?_, ?_, by rw [hpc]; exact hl⟩
    · unfold W.cell; rw [wr.left, wr.new, wr.old, q1]
    · unfold W.space; rw [wr.leftCap, wr.newCap, wr.oldCap, q2]; omega

end Verif.Slab
