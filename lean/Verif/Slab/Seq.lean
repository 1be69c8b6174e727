import Verif.Slab.Frame
/-! The restartable sequences preserve the invariant and are defined. -/
namespace Verif.Slab

theorem begins_apart {cfg w} (k : K cfg w) {a b : Nat} (ha : Valid cfg.nc a) (hb : Valid cfg.nc b) (h : a < b) :
    w.begins a + w.caps a + (if w.caps a = 0 then 0 else 1) ≤ w.begins b := by
  rw [k.beg a ha, k.beg b hb]; exact beginOf_mono _ _ ha.1 h

theorem begins_pos {cfg w} (k : K cfg w) {a : Nat} (ha : Valid cfg.nc a) : 1 ≤ w.begins a := by
  rw [k.beg a ha]; have := beginOf_ge cfg.nc w.caps ha.1; omega

theorem begins_end {cfg w} (k : K cfg w) {a : Nat} (ha : Valid cfg.nc a) : w.begins a + w.caps a < 65536 := by
  rw [k.beg a ha]; exact k.fit.end_lt ha

theorem setS_off (m : Mem) (b c p v b' c' : Nat) (h : ¬ (b' = b ∧ c' = c)) :
    (∀ k, (m.setS b c p v).hdr b' c' k = m.hdr b' c' k) ∧ ∀ i, (m.setS b c p v).slot b' c' i = m.slot b' c' i := by
  refine ⟨fun _ => rfl, fun i => ?_⟩
  simp only [Mem.setS]
  rw [if_neg (by rintro ⟨h1, h2, _⟩; exact h ⟨h1, h2⟩)]

theorem setH_off (m : Mem) (b c j : Nat) (x : Hdr) (b' c' : Nat) (h : ¬ (b' = b ∧ c' = c)) :
    (∀ k, (m.setH b c j x).hdr b' c' k = m.hdr b' c' k) ∧ ∀ i, (m.setH b c j x).slot b' c' i = m.slot b' c' i := by
  refine ⟨fun k => ?_, fun _ => rfl⟩
  simp only [Mem.setH]
  rw [if_neg (by rintro ⟨h1, h2, _⟩; exact h ⟨h1, h2⟩)]

theorem RegOK.setS {cfg w} (k : K cfg w) {c : Nat} (r : RegOK cfg.nc w.caps w.begins w.mem w.slabs c) {a p v : Nat}
    (ha : Valid cfg.nc a) (h1 : (w.mem.hdr w.slabs c a).cur ≤ p) (h2 : p < w.begins a + w.caps a) :
    RegOK cfg.nc w.caps w.begins (w.mem.setS w.slabs c p v) w.slabs c := by
  have hlo := r.lo a ha
  have hcap : w.caps a ≠ 0 := by omega
  refine ⟨r.lo, r.mid, r.hi, ?_, ?_⟩
  · intro x hx
    simp only [Mem.setS]
    have hxp := begins_pos k hx
    have : ¬ (w.begins x - 1 = p) := by
      intro e
      rcases Nat.lt_trichotomy x a with h | h | h
      · have := begins_apart k hx ha h; omega
      · subst h; omega
      · have := begins_apart k ha hx h; rw [if_neg hcap] at this; omega
    rw [if_neg (fun h => this h.2.2)]
    exact r.mark x hx
  · intro x hx i hi1 hi2
    simp only [Mem.setS] at hi2 ⊢
    have h3 := r.mid x hx
    have h4 := r.hi x hx
    have : ¬ (i = p) := by
      intro e
      rcases Nat.lt_trichotomy x a with h | h | h
      · have := begins_apart k hx ha h; omega
      · subst h; omega
      · have := begins_apart k ha hx h; rw [if_neg hcap] at this; omega
    rw [if_neg (fun h => this h.2.2)]
    exact r.objs x hx i hi1 hi2

theorem RegOK.setH {nc caps begins m b c} (r : RegOK nc caps begins m b c) {a : Nat} {h : Hdr}
    (h1 : begins a ≤ h.cur) (h2 : h.cur ≤ h.fin) (h3 : h.fin ≤ begins a + caps a)
    (h4 : ∀ i, begins a ≤ i → i < h.cur → GoodObj (m.slot b c i)) :
    RegOK nc caps begins (m.setH b c a h) b c := by
  refine ⟨?_, ?_, ?_, r.mark, ?_⟩ <;> intro x hx <;> simp only [Mem.setH, true_and]
  · split
    · rename_i e; subst e; exact h1
    · exact r.lo x hx
  · split
    · exact h2
    · exact r.mid x hx
  · split
    · rename_i e; subst e; exact h3
    · exact r.hi x hx
  · intro i hi1 hi2
    split at hi2
    · rename_i e; subst e; exact h4 i hi1 hi2
    · exact r.objs x hx i hi1 hi2

theorem Good.mono {w w' : W} {j th th' b c} (g : Good w j th b c) (hs : w'.slabs = w.slabs)
    (hp : w'.populated c = true) (nf : NoFence w' j c) (h1 : th'.cpu = th.cpu) (h2 : th'.vcpu = th.vcpu)
    (h3 : th'.ret = th.ret) : Good w' j th' b c :=
  ⟨h1.trans g.cpu, g.slabs.trans hs.symm, hp, nf, h2.trans g.vcpu, h3.trans g.ret⟩

theorem Good.pc {w : W} {j th b c} (g : Good w j th b c) (p : PC) : Good w j { th with pc := p } b c :=
  ⟨g.cpu, g.slabs, g.pop, g.nf, g.vcpu, g.ret⟩

theorem PtrGood.pc {w : W} {j th} (g : PtrGood w j th) (p : PC) : PtrGood w j { th with pc := p } := by
  rcases g with g | ⟨b, c, h, g⟩
  · exact Or.inl g
  · exact Or.inr ⟨b, c, h, g.pc p⟩

theorem In.pc {w : W} {j th b c} (g : In w j th b c) (p : PC) : In w j { th with pc := p } b c := ⟨g.1, g.2.pc p⟩

theorem In.ptrGood {w : W} {j th b c} (g : In w j th b c) : PtrGood w j th := Or.inr ⟨b, c, g.1, g.2⟩

theorem PtrGood.cases {w : W} {j th} (g : PtrGood w j th) {b c : Nat} (e : th.ptr = .reg b c) : In w j th b c := by
  rcases g with g | ⟨b', c', h, g⟩
  · rw [e] at g; cases g
  · rw [e] at h; cases h; exact ⟨e, g⟩

theorem PtrGood.not_mask {w : W} {j th} (g : PtrGood w j th) : th.ptr ≠ .mask := by
  rcases g with g | ⟨b', c', h, g⟩ <;> intro e
  · rw [e] at g; cases g
  · rw [e] at h; cases h

/-- `K.local` for a change of the program counter. -/
theorem K.goto {cfg w} (k : K cfg w) {i : Nat} {th : Thread} (hi : w.thr[i]? = some th) {pc : PC}
    (ok : ThOK cfg w i { th with pc := pc }) (h1 : ∀ c, th.pc ≠ .remote c) (h2 : th.pc ≠ .all)
    (h : List (Nat × Nat)) : K cfg { w.goto i th pc with held := h } :=
  k.local hi ok rfl (fun e => k.off i th hi e) (fun c e => absurd e (h1 c)) (fun e => absurd e h2) h

theorem K.goto' {cfg w} (k : K cfg w) {i : Nat} {th : Thread} (hi : w.thr[i]? = some th) {pc : PC}
    (ok : ThOK cfg w i { th with pc := pc }) (h1 : ∀ c, th.pc ≠ .remote c) (h2 : th.pc ≠ .all) :
    K cfg (w.goto i th pc) := k.goto hi ok h1 h2 w.held

theorem push_K {cfg w} (k : K cfg w) {i : Nat} {th : Thread} (hi : w.thr[i]? = some th) {pc : PC} (hpc : th.pc = pc)
    (hp : match pc with | .push0 .. | .push1 .. | .push2 .. | .push3 .. | .push4 .. => True | _ => False) :
    ∃ w' out, stepPush w i th pc = some (w', out) ∧ K cfg w' := by
  have ok := k.thr i th hi
  unfold ThOK at ok
  have n1 : ∀ c, th.pc ≠ .remote c := by intro c e; rw [hpc] at e; subst e; exact hp
  have n2 : th.pc ≠ .all := by intro e; rw [hpc] at e; subst e; exact hp
  rw [hpc] at ok
  cases pc <;> simp only [] at hp ok
  case push0 a o =>
    obtain ⟨hv, ho, g⟩ := ok
    simp only [stepPush]
    rcases hptr : th.ptr with _ | _ | ⟨b, c⟩
    · exact ⟨_, _, rfl, k.goto (pc := .idle) hi (show PtrGood w i _ from g.pc _) n1 n2 _⟩
    · exact absurd hptr g.not_mask
    · exact ⟨_, _, rfl, k.goto' hi (show Valid cfg.nc a ∧ GoodObj o ∧ In w i _ b c from ⟨hv, ho, (g.cases hptr).pc _⟩) n1 n2⟩
  case push1 a o b c =>
    obtain ⟨hv, ho, g⟩ := ok
    exact ⟨_, _, rfl, k.goto' hi (show Valid cfg.nc a ∧ GoodObj o ∧ In w i _ b c ∧ _ from ⟨hv, ho, g.pc _, rfl⟩) n1 n2⟩
  case push2 a o b c cur =>
    obtain ⟨hv, ho, g, e⟩ := ok
    simp only [stepPush]
    split
    · exact ⟨_, _, rfl, k.goto (pc := .idle) hi (show PtrGood w i _ from (g.pc _).ptrGood) n1 n2 _⟩
    · exact ⟨_, _, rfl, k.goto' hi (show Valid cfg.nc a ∧ GoodObj o ∧ In w i _ b c ∧ _ ∧ _ from
        ⟨hv, ho, g.pc _, e, by omega⟩) n1 n2⟩
  case push3 a o b c cur =>
    obtain ⟨hv, ho, g, e, e2⟩ := ok
    have hb := g.2.slabs
    subst hb
    have r := k.reg c g.2.pop
    refine ⟨_, _, rfl, k.write (th' := { th with pc := .push4 a o w.slabs c cur }) hi g.2.cpu g.2.pop g.2.nf n1 n2 rfl
      (fun b' c' h => setS_off _ _ _ _ _ _ _ h)
      (r.setS k hv (by omega) (by have := r.hi a hv; omega)) w.held ?_⟩
    refine (show Valid cfg.nc a ∧ GoodObj o ∧ In _ i _ w.slabs c ∧ _ ∧ _ ∧ _ from
      ⟨hv, ho, ⟨g.1, g.2.mono rfl g.2.pop g.2.nf rfl rfl rfl⟩, e, e2, ?_⟩)
    simp [Mem.setS]
  case push4 a o b c cur =>
    obtain ⟨hv, ho, g, e, e2, e3⟩ := ok
    have hb := g.2.slabs
    subst hb
    have r := k.reg c g.2.pop
    have h1 := r.lo a hv
    have h2 := r.hi a hv
    have h3 := begins_end k hv
    have hm : (cur + 1) % 65536 = cur + 1 := Nat.mod_eq_of_lt (by omega)
    simp only [stepPush, hm]
    refine ⟨_, _, rfl, k.write (th' := { th with pc := .idle }) hi g.2.cpu g.2.pop g.2.nf n1 n2 rfl
      (fun b' c' h => setH_off _ _ _ _ _ _ _ h) (r.setH ?_ ?_ ?_ ?_) w.held ?_⟩
    · show _ ≤ cur + 1; omega
    · show cur + 1 ≤ (w.mem.hdr w.slabs c a).fin; omega
    · exact h2
    · intro x hx1 hx2
      have hx2' : x < cur + 1 := hx2
      by_cases h : x = cur
      · rw [h, e3]; exact ho
      · exact r.objs a hv x hx1 (by omega)
    · exact (show PtrGood _ i _ from Or.inr ⟨w.slabs, c, g.1, g.2.mono rfl g.2.pop g.2.nf rfl rfl rfl⟩)

theorem pop_K {cfg w} (k : K cfg w) {i : Nat} {th : Thread} (hi : w.thr[i]? = some th) {pc : PC} (hpc : th.pc = pc)
    (hp : match pc with | .pop0 .. | .pop1 .. | .pop2 .. | .pop3 .. | .pop4 .. => True | _ => False) :
    ∃ w' out, stepPop w i th pc = some (w', out) ∧ K cfg w' := by
  have ok := k.thr i th hi
  unfold ThOK at ok
  have n1 : ∀ c, th.pc ≠ .remote c := by intro c e; rw [hpc] at e; subst e; exact hp
  have n2 : th.pc ≠ .all := by intro e; rw [hpc] at e; subst e; exact hp
  rw [hpc] at ok
  cases pc <;> simp only [] at hp ok
  case pop0 a =>
    obtain ⟨hv, g⟩ := ok
    simp only [stepPop]
    rcases hptr : th.ptr with _ | _ | ⟨b, c⟩
    · exact ⟨_, _, rfl, k.goto' hi (show PtrGood w i _ from g.pc _) n1 n2⟩
    · exact absurd hptr g.not_mask
    · exact ⟨_, _, rfl, k.goto' hi (show Valid cfg.nc a ∧ In w i _ b c from ⟨hv, (g.cases hptr).pc _⟩) n1 n2⟩
  case pop1 a b c =>
    obtain ⟨hv, g⟩ := ok
    exact ⟨_, _, rfl, k.goto' hi (show Valid cfg.nc a ∧ In w i _ b c ∧ _ from ⟨hv, g.pc _, rfl⟩) n1 n2⟩
  case pop2 a b c cur =>
    obtain ⟨hv, g, e⟩ := ok
    have hb := g.2.slabs
    subst hb
    have r := k.reg c g.2.pop
    have h1 := r.lo a hv
    have h2 := begins_pos k hv
    simp only [stepPop]
    rw [if_neg (by omega)]
    split
    · exact ⟨_, _, rfl, k.goto' hi (show PtrGood w i _ from (g.pc _).ptrGood) n1 n2⟩
    · rename_i hodd
      refine ⟨_, _, rfl, k.goto' hi (show Valid cfg.nc a ∧ In w i _ w.slabs c ∧ _ ∧ _ ∧ _ from
        ⟨hv, g.pc _, e, ?_, rfl⟩) n1 n2⟩
      have : cur ≠ w.begins a := by
        intro h
        apply hodd
        rw [h]; exact r.mark a hv
      omega
  case pop3 a b c cur res =>
    obtain ⟨hv, g, e, e2, e3⟩ := ok
    have hb := g.2.slabs
    subst hb
    have r := k.reg c g.2.pop
    have h2 := begins_pos k hv
    simp only [stepPop]
    have hne : ¬ (cur < 2 ∨ w.mem.slot w.slabs c (cur - 2) = 0) := by
      rintro (h | h)
      · omega
      · by_cases hx : cur - 2 = w.begins a - 1
        · rw [hx] at h; have := r.mark a hv; omega
        · exact (r.objs a hv (cur - 2) (by omega) (by omega)).1 h
    rw [if_neg hne]
    exact ⟨_, _, rfl, k.goto' hi (show Valid cfg.nc a ∧ In w i _ w.slabs c ∧ _ ∧ _ ∧ _ from
        ⟨hv, g.pc _, e, e2, e3⟩) n1 n2⟩
  case pop4 a b c cur res =>
    obtain ⟨hv, g, e, e2, e3⟩ := ok
    have hb := g.2.slabs
    subst hb
    have r := k.reg c g.2.pop
    have h1 := r.mid a hv
    have h2 := r.hi a hv
    simp only [stepPop]
    have hne : res ≠ 0 := by rw [e3]; exact (r.objs a hv (cur - 1) (by omega) (by omega)).1
    rw [if_neg hne]
    refine ⟨_, _, rfl, k.write (th' := { th with pc := .idle }) hi g.2.cpu g.2.pop g.2.nf n1 n2 rfl
      (fun b' c' h => setH_off _ _ _ _ _ _ _ h) (r.setH ?_ ?_ ?_ ?_) _ ?_⟩
    · show _ ≤ cur - 1; omega
    · show cur - 1 ≤ (w.mem.hdr w.slabs c a).fin; omega
    · exact h2
    · intro x hx1 hx2
      have hx2' : x < cur - 1 := hx2
      exact r.objs a hv x hx1 (by omega)
    · exact (show PtrGood _ i _ from Or.inr ⟨w.slabs, c, g.1, g.2.mono rfl g.2.pop g.2.nf rfl rfl rfl⟩)

theorem pushB_K {cfg w} (k : K cfg w) {i : Nat} {th : Thread} (hi : w.thr[i]? = some th) {pc : PC} (hpc : th.pc = pc)
    (hp : match pc with | .pushB0 .. | .pushB1 .. | .pushB2 .. | .pushB3 .. => True | _ => False) :
    ∃ w' out, stepPushB w i th pc = some (w', out) ∧ K cfg w' := by
  have ok := k.thr i th hi
  unfold ThOK at ok
  have n1 : ∀ c, th.pc ≠ .remote c := by intro c e; rw [hpc] at e; subst e; exact hp
  have n2 : th.pc ≠ .all := by intro e; rw [hpc] at e; subst e; exact hp
  rw [hpc] at ok
  cases pc <;> simp only [] at hp ok
  case pushB0 a l =>
    obtain ⟨hv, ho, g⟩ := ok
    simp only [stepPushB]
    rcases hptr : th.ptr with _ | _ | ⟨b, c⟩
    · exact ⟨_, _, rfl, k.goto (pc := .idle) hi (show PtrGood w i _ from g.pc _) n1 n2 _⟩
    · exact absurd hptr g.not_mask
    · exact ⟨_, _, rfl, k.goto' hi (show Valid cfg.nc a ∧ _ ∧ In w i _ b c from ⟨hv, ho, (g.cases hptr).pc _⟩) n1 n2⟩
  case pushB1 a l b c =>
    obtain ⟨hv, ho, g⟩ := ok
    exact ⟨_, _, rfl, k.goto' hi (show Valid cfg.nc a ∧ _ ∧ In w i _ b c ∧ _ from ⟨hv, ho, g.pc _, rfl⟩) n1 n2⟩
  case pushB2 a l b c cur =>
    obtain ⟨hv, ho, g, e⟩ := ok
    simp only [stepPushB]
    split
    · exact ⟨_, _, rfl, k.goto (pc := .idle) hi (show PtrGood w i _ from (g.pc _).ptrGood) n1 n2 _⟩
    · exact ⟨_, _, rfl, k.goto' hi (show Valid cfg.nc a ∧ _ ∧ In w i _ b c ∧ _ ∧ _ ∧ _ ∧ _ ∧ _ from
        ⟨hv, ho, g.pc _, e, by omega, rfl, by omega, fun x hx => absurd hx (by omega)⟩) n1 n2⟩
  case pushB3 a l b c cur m j =>
    obtain ⟨hv, ho, g, e, e2, e3, e4, e5⟩ := ok
    have hb := g.2.slabs
    subst hb
    have r := k.reg c g.2.pop
    have h1 := r.lo a hv
    have h2 := r.hi a hv
    have h3 := begins_end k hv
    simp only [stepPushB]
    split
    · rename_i hj
      have hlt : l.length - 1 - j < l.length := by
        have : 0 < l.length := List.length_pos_iff.2 ho.1
        omega
      have he : l[l.length - 1 - j]? = some (l[l.length - 1 - j]) := List.getElem?_eq_getElem hlt
      rw [he]
      refine ⟨_, _, rfl, k.write (th' := { th with pc := .pushB3 a l w.slabs c cur m (j + 1) }) hi g.2.cpu g.2.pop g.2.nf
        n1 n2 rfl (fun b' c' h => setS_off _ _ _ _ _ _ _ h) (r.setS k hv (by omega) (by omega)) w.held ?_⟩
      refine (show Valid cfg.nc a ∧ _ ∧ In _ i _ w.slabs c ∧ _ ∧ _ ∧ _ ∧ _ ∧ _ from
        ⟨hv, ho, ⟨g.1, g.2.mono rfl g.2.pop g.2.nf rfl rfl rfl⟩, e, e2, e3, hj, ?_⟩)
      intro x hx
      simp only [Mem.setS]
      by_cases hxj : x = j
      · subst hxj; simp
      · rw [if_neg (by rintro ⟨_, _, h⟩; omega)]; exact e5 x (by omega)
    · rename_i hj
      have hm : (cur + m) % 65536 = cur + m := Nat.mod_eq_of_lt (by omega)
      rw [hm]
      refine ⟨_, _, rfl, k.write (th' := { th with pc := .idle }) hi g.2.cpu g.2.pop g.2.nf n1 n2 rfl
        (fun b' c' h => setH_off _ _ _ _ _ _ _ h) (r.setH ?_ ?_ ?_ ?_) _ ?_⟩
      · show _ ≤ cur + m; omega
      · show cur + m ≤ (w.mem.hdr w.slabs c a).fin; omega
      · exact h2
      · intro x hx1 hx2
        have hx2' : x < cur + m := hx2
        by_cases h : x < cur
        · exact r.objs a hv x hx1 (by omega)
        · have := e5 (x - cur) (by omega)
          have hmem := List.mem_of_getElem? this
          rw [show cur + (x - cur) = x by omega] at hmem
          exact ho.2 _ hmem
      · exact (show PtrGood _ i _ from Or.inr ⟨w.slabs, c, g.1, g.2.mono rfl g.2.pop g.2.nf rfl rfl rfl⟩)

theorem popB_K {cfg w} (k : K cfg w) {i : Nat} {th : Thread} (hi : w.thr[i]? = some th) {pc : PC} (hpc : th.pc = pc)
    (hp : match pc with | .popB0 .. | .popB1 .. | .popB2 .. | .popB3 .. => True | _ => False) :
    ∃ w' out, stepPopB w i th pc = some (w', out) ∧ K cfg w' := by
  have ok := k.thr i th hi
  unfold ThOK at ok
  have n1 : ∀ c, th.pc ≠ .remote c := by intro c e; rw [hpc] at e; subst e; exact hp
  have n2 : th.pc ≠ .all := by intro e; rw [hpc] at e; subst e; exact hp
  rw [hpc] at ok
  cases pc <;> simp only [] at hp ok
  case popB0 a n =>
    obtain ⟨hv, hn, g⟩ := ok
    simp only [stepPopB]
    rcases hptr : th.ptr with _ | _ | ⟨b, c⟩
    · exact ⟨_, _, rfl, k.goto' hi (show PtrGood w i _ from g.pc _) n1 n2⟩
    · exact absurd hptr g.not_mask
    · exact ⟨_, _, rfl, k.goto' hi (show Valid cfg.nc a ∧ _ ∧ In w i _ b c from ⟨hv, hn, (g.cases hptr).pc _⟩) n1 n2⟩
  case popB1 a n b c =>
    obtain ⟨hv, hn, g⟩ := ok
    exact ⟨_, _, rfl, k.goto' hi (show Valid cfg.nc a ∧ _ ∧ In w i _ b c ∧ _ from ⟨hv, hn, g.pc _, rfl⟩) n1 n2⟩
  case popB2 a n b c cur =>
    obtain ⟨hv, hn, g, e⟩ := ok
    simp only [stepPopB]
    split
    · exact ⟨_, _, rfl, k.goto' hi (show PtrGood w i _ from (g.pc _).ptrGood) n1 n2⟩
    · exact ⟨_, _, rfl, k.goto' hi (show Valid cfg.nc a ∧ _ ∧ In w i _ b c ∧ _ ∧ _ ∧ _ ∧ _ ∧ _ from
        ⟨hv, hn, g.pc _, e, by omega, rfl, Nat.zero_le _, rfl⟩) n1 n2⟩
  case popB3 a n b c cur m got =>
    obtain ⟨hv, hn, g, e, e2, e3, e4, e5⟩ := ok
    have hb := g.2.slabs
    subst hb
    have r := k.reg c g.2.pop
    have h1 := r.mid a hv
    have h2 := r.hi a hv
    simp only [stepPopB]
    split
    · rename_i hj
      rw [if_neg (by omega)]
      refine ⟨_, _, rfl, k.goto' hi (show Valid cfg.nc a ∧ _ ∧ In w i _ w.slabs c ∧ _ ∧ _ ∧ _ ∧ _ ∧ _ from
        ⟨hv, hn, g.pc _, e, e2, e3, ?_, ?_⟩) n1 n2⟩
      · rw [List.length_append]; simp; omega
      · rw [List.length_append, List.length_singleton, List.range_succ, List.map_append, ← e5]; simp
    · rename_i hj
      refine ⟨_, _, rfl, k.write (th' := { th with pc := .idle }) hi g.2.cpu g.2.pop g.2.nf n1 n2 rfl
        (fun b' c' h => setH_off _ _ _ _ _ _ _ h) (r.setH ?_ ?_ ?_ ?_) _ ?_⟩
      · show _ ≤ cur - m; omega
      · show cur - m ≤ (w.mem.hdr w.slabs c a).fin; omega
      · exact h2
      · intro x hx1 hx2
        have hx2' : x < cur - m := hx2
        exact r.objs a hv x hx1 (by omega)
      · exact (show PtrGood _ i _ from Or.inr ⟨w.slabs, c, g.1, g.2.mono rfl g.2.pop g.2.nf rfl rfl rfl⟩)

/-- A CPU on which a thread has a usable pointer is not fenced by an operation on all CPUs. -/
theorem capsStable_of {cfg w} (k : K cfg w) {i : Nat} {th : Thread} (hi : w.thr[i]? = some th) {c : Nat}
    (nf : NoFence w i c) (h2 : th.pc ≠ .all) : w.capsStable = true := by
  unfold W.capsStable
  split
  · rename_i o r e
    by_cases h : (r.post.isNone && r.todo == some []) = true
    · exfalso
      rw [Bool.and_eq_true] at h
      have hp : r.post = none := by simpa using h.1
      have ht : r.todo = some [] := by simpa using h.2
      have hf : FencedBy w c o := Or.inr ⟨r, e, ⟨⟨[], ht, by simp⟩, fun p hp' => by rw [hp] at hp'; cases hp'⟩⟩
      have := nf o hf
      subst this
      obtain ⟨⟨t, e1, e2⟩, _⟩ := k.rs _ r e
      rw [hi] at e1; cases e1
      exact h2 e2
    · simp only [Bool.not_eq_true] at h; rw [h]; rfl
  · rfl

theorem grow_K {cfg w} (k : K cfg w) {i : Nat} {th : Thread} (hi : w.thr[i]? = some th) {pc : PC} (ch : Ch)
    (hpc : th.pc = pc)
    (hp : match pc with | .grow0 .. | .grow1 .. | .grow2 .. | .grow3 .. | .grow4 .. | .grow5 .. => True | _ => False) :
    ∃ w' out, stepGrow w i th ch pc = some (w', out) ∧ K cfg w' := by
  have ok := k.thr i th hi
  unfold ThOK at ok
  have n1 : ∀ c, th.pc ≠ .remote c := by intro c e; rw [hpc] at e; subst e; exact hp
  have n2 : th.pc ≠ .all := by intro e; rw [hpc] at e; subst e; exact hp
  rw [hpc] at ok
  have good : PtrGood w i th → th.ptr ≠ .none → Good w i th w.slabs th.ret := by
    intro g hne
    rcases g with g | ⟨b, c, _, g⟩
    · exact absurd g hne
    · have hb := g.slabs
      subst hb
      rw [g.ret]; exact g
  cases pc <;> simp only [] at hp ok
  case grow0 a len =>
    obtain ⟨hv, g⟩ := ok
    exact ⟨_, _, rfl, k.goto' hi (show Valid cfg.nc a ∧ PtrGood w i _ ∧ _ from ⟨hv, g.pc _, fun _ => rfl⟩) n1 n2⟩
  case grow1 a len b =>
    obtain ⟨hv, g, e⟩ := ok
    refine ⟨_, _, rfl, k.goto' hi (show Valid cfg.nc a ∧ PtrGood w i _ ∧ _ from ⟨hv, g.pc _, fun hne => ⟨e hne, ?_⟩⟩) n1 n2⟩
    have hne' : th.ptr ≠ .none := hne
    rw [if_pos ⟨e hne', capsStable_of k hi (good g hne').nf n2⟩]
  case grow2 a len b mx =>
    obtain ⟨hv, g, e⟩ := ok
    refine ⟨_, _, rfl, k.goto' hi (show Valid cfg.nc a ∧ PtrGood w i _ ∧ _ from
      ⟨hv, g.pc _, fun hne => ⟨(e hne).1, (e hne).2, ?_⟩⟩) n1 n2⟩
    rw [(e hne).1]
  case grow3 a len b mx h =>
    obtain ⟨hv, g, e⟩ := ok
    simp only [stepGrow]
    split
    · exact ⟨_, _, rfl, k.goto' hi (show PtrGood w i _ from g.pc _) n1 n2⟩
    · rename_i hlt
      refine ⟨_, _, rfl, k.goto' hi (show (Valid cfg.nc a ∧ _) ∧ PtrGood w i _ ∧ _ from
        ⟨⟨hv, Nat.le_trans (Nat.min_le_left _ _) (Nat.mod_le _ _)⟩, g.pc _, fun hne => ⟨(e hne).1, ?_⟩⟩) n1 n2⟩
      obtain ⟨e1, e2, e3⟩ := e hne
      have gd := good g hne
      have r := k.reg _ gd.pop
      have h1 := begins_end k hv
      have h2 := r.lo a hv
      have h3 := r.mid a hv
      have h4 := r.hi a hv
      subst e2
      refine ⟨?_, ?_, ?_⟩
      · show h.cur = _; rw [e3]
      · show (h.fin + _) % 65536 = _
        rw [e3] at hlt ⊢
        have := Nat.mod_le (w.caps a + w.begins a - (w.mem.hdr w.slabs th.ret a).fin) 65536
        apply Nat.mod_eq_of_lt
        show _ + min _ _ < _
        omega
      · show (h.fin + _) % 65536 ≤ _
        rw [e3] at hlt ⊢
        have := Nat.mod_le (w.caps a + w.begins a - (w.mem.hdr w.slabs th.ret a).fin) 65536
        refine Nat.le_trans (Nat.mod_le _ _) ?_
        show _ + min _ _ ≤ _
        omega
  case grow4 a len b h n =>
    obtain ⟨hv, g, e⟩ := ok
    simp only [stepGrow]
    rcases hptr : th.ptr with _ | _ | ⟨b', c'⟩
    · exact ⟨_, _, rfl, k.goto' hi (show PtrGood w i _ from g.pc _) n1 n2⟩
    · exact absurd hptr g.not_mask
    · have hne : th.ptr ≠ .none := by rw [hptr]; exact fun h => by cases h
      exact ⟨_, _, rfl, k.goto' hi (show (Valid cfg.nc a ∧ _) ∧ PtrGood w i _ ∧ _ ∧ _ ∧ _ from
        ⟨hv, g.pc _, hne, e hne⟩) n1 n2⟩
  case grow5 a len b h n =>
    obtain ⟨⟨hv, _⟩, g, hne, e, e2⟩ := ok
    subst e
    have gd := good g hne
    have r := k.reg _ gd.pop
    have h2 := r.lo a hv
    have h3 := r.mid a hv
    refine ⟨_, _, rfl, k.write (th' := { th with pc := .idle }) hi gd.cpu gd.pop gd.nf n1 n2 rfl
        (fun b' c' h => setH_off _ _ _ _ _ _ _ h) (r.setH ?_ ?_ ?_ ?_) w.held ?_⟩
    · rw [e2.cur]; exact h2
    · rw [e2.cur, e2.fin]; omega
    · exact e2.le
    · intro x hx1 hx2
      rw [e2.cur] at hx2
      exact r.objs a hv x hx1 hx2
    · rcases g with g | ⟨b, c, hp, g⟩
      · exact absurd g hne
      · exact (show PtrGood _ i _ from Or.inr ⟨b, c, hp, g.mono rfl g.pop g.nf rfl rfl rfl⟩)

end Verif.Slab
