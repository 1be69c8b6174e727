import Verif.CpuCache.Inv
/-! Preservation of the invariant by the kinds of moves a thread makes. -/
namespace Verif.CpuCache
open Slab (Valid GoodObj Kind Sub Under Same SameBut)

variable {cfg : Cfg} {limit : Nat}

theorem set_same {α} {l : List α} {i : Nat} {x : α} (h : l[i]? = some x) : l.set i x = l := by
  apply List.ext_getElem?
  intro j
  rw [List.getElem?_set]
  split
  · rename_i e; subst e
    split
    · exact h.symm
    · rename_i e; rw [List.getElem?_eq_none (by omega)]
  · rfl

theorem under_refl {s : Slab.W} (r : Slab.Reach cfg.slab s) {i : Nat} {t : Slab.Thread} (h : s.thr[i]? = some t) :
    Under cfg.slab s s i (s.kind t.pc) t.ret :=
  ⟨r, ⟨t, h, rfl, rfl⟩, fun _ tj _ h => ⟨tj, h, rfl, rfl⟩⟩

theorem K.hand_le {w : W} (k : K cfg limit w) {i : Nat} {st : St} (hi : w.th[i]? = some st) (a : Nat × Nat) :
    st.hand.count a ≤ w.s.held.count a := by
  have h1 := k.held a
  have h2 := count_set St.hand .idle hi a
  have : (St.hand .idle).count a = 0 := rfl
  omega

theorem K.hand_used {w : W} (k : K cfg limit w) {x : Nat × Nat} (h : x ∈ w.s.held) : cfg.Used x.1 ∧ GoodObj x.2 := by
  refine ⟨k.used x ?_, (k.slab.held_good x h).2⟩
  unfold Slab.W.everything
  exact List.mem_append_left _ (List.mem_append_left _ h)

theorem K.hand_mem {w : W} (k : K cfg limit w) {i : Nat} {st : St} (hi : w.th[i]? = some st) {x : Nat × Nat} (h : x ∈ st.hand) :
    x ∈ w.s.held := by
  have := k.hand_le hi x
  have := List.count_pos_iff.mpr h
  exact List.count_pos_iff.mp (by omega)

/-- A move that does not touch the slabs. -/
theorem K.stay {w w' : W} (k : K cfg limit w) {i : Nat} {st st' : St} (hi : w.th[i]? = some st)
    (hth : w'.th = w.th.set i st') (hs : w'.s = w.s) (hf : ∀ kd, st.fits cfg kd → st'.fits cfg kd)
    (hc : ∀ c, st'.cpu = some c → st.cpu = some c)
    (hh : ∀ a, w.user.count a + st.hand.count a = w'.user.count a + st'.hand.count a)
    (hok : st'.OK cfg) (hone : st'.isSteal = true → st.isSteal = true ∨ ∀ x ∈ w.th, x.isSteal = false)
    (hb : ∀ c, c < cfg.slab.n → w'.avail c + st'.purse c + w.cap c + st.owed c = w.avail c + st.purse c + w'.cap c + st'.owed c)
    (hsum : total cfg.slab.n w'.cap + st'.moving = total cfg.slab.n w.cap + st.moving) : K cfg limit w' := by
  obtain ⟨t, h1, h2, h3⟩ := k.fit i st hi
  refine k.next hi hth (by rw [hs]; exact under_refl k.slab h1) (hf _ h2) (fun c e => h3 c (hc c e)) ?_ (by rw [hs]; exact k.used) hok hone ?_ hsum
  · intro a; rw [hs]; have := hh a; omega
  · intro c hc'; rw [hs]; have := hb c hc'; omega

/-- A thread in a slab operation or about to start one. -/
structure Run (cfg : Cfg) (w : W) (i : Nat) (t : Slab.Thread) : Prop where
  thr : w.s.thr[i]? = some t
  cpu : t.cpu ≠ none

theorem K.run {w : W} (k : K cfg limit w) {i : Nat} {st : St} (hi : w.th[i]? = some st)
    (h : ∃ t : Slab.Thread, w.s.thr[i]? = some t ∧ t.cpu ≠ none) :
    ∃ t, Run cfg w i t ∧ st.fits cfg (w.s.kind t.pc) ∧ ∀ c, st.cpu = some c → t.ret = c := by
  obtain ⟨t, h1, h2⟩ := h
  obtain ⟨t', h3, h4, h5⟩ := k.fit i st hi
  rw [h1] at h3; injection h3 with h3; subst h3
  exact ⟨t, ⟨h1, h2⟩, h4, h5⟩

/-- A call of the slabs. -/
theorem K.start {w w0 : W} (k : K cfg limit w) {i : Nat} {st st' : St} {op : Slab.Op} (hi : w.th[i]? = some st)
    (hr : ∃ t : Slab.Thread, w.s.thr[i]? = some t ∧ t.cpu ≠ none) (hp : Slab.Pre cfg.slab w.s (.call i op)) (hop : op ≠ .cache)
    (h0s : w0.s = w.s) (h0t : w0.th = w.th)
    (hf : st'.fits cfg op.kind) (hc : ∀ c, st'.cpu = some c → st.cpu = some c)
    (hh : ∀ a, (op.rest w.s.held).count a + w.user.count a + st.hand.count a =
      w.s.held.count a + w0.user.count a + st'.hand.count a)
    (hok : st'.OK cfg) (hone : st'.isSteal = true → st.isSteal = true ∨ ∀ x ∈ w.th, x.isSteal = false)
    (hb : ∀ c, c < cfg.slab.n → w0.avail c + st'.purse c + w.cap c + st.owed c = w.avail c + st.purse c + w0.cap c + st'.owed c)
    (hsum : total cfg.slab.n w0.cap + st'.moving = total cfg.slab.n w.cap + st.moving) :
    ∃ w' out, w0.start cfg i op st' = some (w', out) ∧ K cfg limit w' := by
  obtain ⟨t, hrun, hfit, hcpu⟩ := k.run hi hr
  obtain ⟨s', out, e, hu, hsame, hheld, hev⟩ := Slab.call_under k.slab hrun.thr hp
  rcases hu with ⟨hu, rfl⟩ | ⟨h, -⟩
  · refine ⟨({ w0 with s := s' } : W).go i st', .tau, by simp only [W.start, W.call, h0s, e], ?_⟩
    refine k.next (w' := ({ w0 with s := s' } : W).go i st') hi (by show w0.th.set i st' = _; rw [h0t]) hu hf
      (fun c h => hcpu c (hc c h)) ?_ (fun x hx => k.used x (hev.mem_iff.mp hx)) hok hone ?_ hsum
    · intro a
      show s'.held.count a + _ + _ = _ + w0.user.count a + _
      rw [hheld]; exact hh a
    · intro c h
      show w0.avail c + bytes cfg s' c + _ + _ + _ = _ + _ + _ + w0.cap c + _
      rw [bytes_same hsame h]; have := hb c h; omega
  · exact absurd h hop

/-- Objects go to the backing cache. -/
theorem K.release {w : W} (k : K cfg limit w) {i : Nat} {st st' : St} {c : Nat} {l : List Nat} (hi : w.th[i]? = some st)
    (hl : l ≠ []) (hlen : l.length ≤ kMaxObjectsToMove)
    (hf : ∀ kd, st.fits cfg kd → st'.fits cfg kd) (hc : ∀ c, st'.cpu = some c → st.cpu = some c)
    (hh : ∀ a, st.hand.count a = (pairs c l).count a + st'.hand.count a)
    (hok : st'.OK cfg) (hone : st'.isSteal = true → st.isSteal = true)
    (hb : ∀ c, st'.purse c = st.purse c ∧ st'.owed c = st.owed c) (hsum : st'.moving = st.moving) :
    ∃ w', w.release c l = some (w', .toBacking c l) ∧ K cfg limit (w'.go i st') := by
  obtain ⟨t, h1, h2, h3⟩ := k.fit i st hi
  have hle : ∀ a, (pairs c l).count a ≤ w.s.held.count a := by
    intro a
    have := k.hand_le hi a
    have := hh a
    omega
  have hr := Slab.release_reach (cfg := cfg.slab) (pairs c l) k.slab hle
  have hcount := Slab.eraseAll_count (pairs c l) w.s.held hle
  refine ⟨_, by simp only [W.release]; rw [if_neg (by intro a; rcases a with a | a; exact hl a; omega)], ?_⟩
  refine k.next hi rfl (Slab.held_under hr h1) (hf _ h2) (fun c e => h3 c (hc c e)) ?_ ?_ hok (fun h => Or.inl (hone h)) ?_ ?_
  · intro a
    show (Slab.eraseAll w.s.held (pairs c l)).count a + _ + _ = _ + w.user.count a + _
    have := hcount a; have := hh a; omega
  · intro x hx
    rcases Slab.everything_mem hx with h | h
    · exact k.used x h
    · have h4 := hcount x
      have h5 := List.count_pos_iff.mpr h
      exact (k.hand_used (List.count_pos_iff.mp (by simp only [pairs] at h4; omega))).1
  · intro c' h
    show w.avail c' + bytes cfg { w.s with held := _ } c' + _ + _ + _ = _ + _ + _ + w.cap c' + _
    rw [bytes_same (Slab.held_same (cfg := cfg.slab) w.s _) h, (hb c').1, (hb c').2]
  · rw [hsum]; rfl

/-- Objects come from the backing cache. -/
theorem K.enter {w : W} (k : K cfg limit w) {i : Nat} {st st' : St} {c : Nat} {l : List Nat} (hi : w.th[i]? = some st)
    (hk : cfg.Used c) (hl : ∀ o ∈ l, GoodObj o)
    (hf : ∀ kd, st.fits cfg kd → st'.fits cfg kd) (hc : st'.cpu = none)
    (hh : ∀ a, st'.hand.count a = (pairs c l).count a + st.hand.count a)
    (hok : st'.OK cfg) (hone : st'.isSteal = false)
    (hb : ∀ c, st'.purse c = st.purse c ∧ st'.owed c = st.owed c) (hsum : st'.moving = st.moving) :
    K cfg limit ((w.enter c l).go i st') := by
  obtain ⟨t, h1, h2, h3⟩ := k.fit i st hi
  have hr := Slab.enter_reach hk.1 l k.slab hl
  refine k.next hi rfl (Slab.held_under hr h1) (hf _ h2) (fun c e => by rw [hc] at e; cases e) ?_ ?_ hok (fun h => by rw [hone] at h; cases h) ?_ ?_
  · intro a
    show (pairs c l ++ w.s.held).count a + _ + _ = _ + w.user.count a + _
    rw [List.count_append]
    have := hh a; omega
  · intro x hx
    rcases Slab.everything_mem hx with h | h
    · exact k.used x h
    · rcases List.mem_append.mp h with h | h
      · rw [List.mem_map] at h
        obtain ⟨o, _, rfl⟩ := h
        exact hk
      · exact (k.hand_used h).1
  · intro c' h
    show w.avail c' + bytes cfg { w.s with held := _ } c' + _ + _ + _ = _ + _ + _ + w.cap c' + _
    rw [bytes_same (Slab.held_same (cfg := cfg.slab) w.s _) h, (hb c').1, (hb c').2]
  · rw [hsum]; rfl

end Verif.CpuCache
