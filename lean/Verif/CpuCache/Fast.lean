import Verif.CpuCache.Moves
/-! Allocation, deallocation, refill, overflow and growing preserve the invariant. -/
namespace Verif.CpuCache
open Slab (Valid GoodObj Kind Sub Under Same SameBut Effect After)

variable {cfg : Cfg} {limit : Nat}

theorem bytes_space {s s' : Slab.W} (h : ∀ c k, c < cfg.slab.n → Valid cfg.slab.nc k → s'.space c k = s.space c k) {c : Nat}
    (hc : c < cfg.slab.n) : bytes cfg s' c = bytes cfg s c := by
  apply sum_congr
  intro k hk
  rw [List.mem_range] at hk
  rw [h c (k + 1) hc ⟨by omega, by omega⟩]

theorem bytes_keep {s s' : Slab.W} {c k : Nat} (h : SameBut cfg.slab s s' c k) (hs : s'.space c k = s.space c k) {c' : Nat}
    (hc : c' < cfg.slab.n) : bytes cfg s' c' = bytes cfg s c' := by
  refine bytes_space (fun a b ha hb => ?_) hc
  by_cases e : a = c ∧ b = k
  · rw [e.1, e.2]; exact hs
  · exact (h a b ha hb e).2

/-- What is known after a step of a slab operation. -/
structure Acted (cfg : Cfg) (w : W) (i : Nat) (ch : Slab.Ch) (t : Slab.Thread) (c : Nat) (s' : Slab.W) (out : Slab.Out) (kd : Kind)
    (ret : Nat) : Prop where
  step : Slab.step cfg.slab w.s (.act i ch) = some (s', out)
  under : Under cfg.slab w.s s' i kd ret
  after : After w.s ch out kd (w.s.kind t.pc)
  eff : Effect cfg.slab w.s s' c t out
  rets : w.s.kind t.pc ≠ .cache → ret = t.ret
  cached : ∀ v, out = .cached (some v) → ret = v
  grew : ∀ n, out = .grew n → n = 0 ∨ t.ret = c
  used : ∀ x ∈ s'.everything cfg.slab, cfg.Used x.1
  cpu : c < cfg.slab.n
  thr : w.s.thr[i]? = some t
  on : t.cpu = some c

theorem all_pc {w : W} {st : St} {t : Slab.Thread} (hfit : st.fits cfg (w.s.kind t.pc)) {c o : Nat}
    (h1 : w.s.rem c = some (o, .ready false)) (h2 : t.pc = .remote c) : st.isAll = false := by
  cases st <;> try rfl
  case all l =>
    have h3 : w.s.kind t.pc = .all := hfit
    rw [h2] at h3
    simp only [Slab.W.kind, h1] at h3
    cases h3

theorem K.acts {w : W} (k : K cfg limit w) {i : Nat} {st : St} (hi : w.th[i]? = some st)
    (hr : ∃ t : Slab.Thread, w.s.thr[i]? = some t ∧ t.cpu ≠ none) (ch : Slab.Ch) (hv : st.isAll = false → 2 ≤ ch.op → Valid cfg.slab.nc ch.k) :
    ∃ t c s' out kd ret, Acted cfg w i ch t c s' out kd ret ∧ st.fits cfg (w.s.kind t.pc) ∧ (∀ c, st.cpu = some c → t.ret = c) := by
  obtain ⟨t, hrun, hfit, hcpu⟩ := k.run hi hr
  have hp : Slab.Pre cfg.slab w.s (.act i ch) := ⟨t, hrun.thr, hrun.cpu, fun c o h1 h2 h => hv (all_pc hfit h1 h2) h⟩
  obtain ⟨c, hc⟩ : ∃ c, t.cpu = some c := by
    cases h : t.cpu with
    | none => exact absurd h hrun.cpu
    | some c => exact ⟨c, rfl⟩
  obtain ⟨s', out, kd, ret, h1, h2, h3, h4, h5, h6, h7, h8⟩ := Slab.act_under k.slab hrun.thr hc hp
  exact ⟨t, c, s', out, kd, ret, ⟨h1, h2, h3, h4, h5, h6, h7, fun x hx => k.used x (h8.mem_iff.mp hx), k.slab.K.cpus i t c hrun.thr hc, hrun.thr, hc⟩, hfit, hcpu⟩

/-- The thread goes on after a step that changed no capacity. -/
theorem K.acted {w w' : W} (k : K cfg limit w) {i : Nat} {st st' : St} (hi : w.th[i]? = some st) {ch : Slab.Ch} {t : Slab.Thread}
    {c : Nat} {s' : Slab.W} {out : Slab.Out} {kd : Kind} {ret : Nat} (a : Acted cfg w i ch t c s' out kd ret)
    (hth : w'.th = w.th.set i st') (hs : w'.s = s') (hav : w'.avail = w.avail) (hcap : w'.cap = w.cap)
    (hf : st'.fits cfg kd) (hc : ∀ c, st'.cpu = some c → ret = c)
    (hh : ∀ a, s'.held.count a + w.user.count a + st.hand.count a = w.s.held.count a + w'.user.count a + st'.hand.count a)
    (hok : st'.OK cfg) (hone : st'.isSteal = true → st.isSteal = true)
    (hby : ∀ c, c < cfg.slab.n → bytes cfg s' c = bytes cfg w.s c)
    (hb : ∀ c, st'.purse c = st.purse c ∧ st'.owed c = st.owed c) (hsum : st'.moving = st.moving) : K cfg limit w' := by
  subst hs
  refine k.next hi hth a.under hf hc hh a.used hok (fun h => Or.inl (hone h)) ?_ ?_
  · intro c h
    rw [hby c h, (hb c).1, (hb c).2, hav, hcap]
  · rw [hcap, hsum]

/-- A silent step. -/
theorem K.silent {w : W} (k : K cfg limit w) {i : Nat} {st : St} (hi : w.th[i]? = some st) {ch : Slab.Ch} {t : Slab.Thread}
    {c : Nat} {s' : Slab.W} {kd : Kind} {ret : Nat} (a : Acted cfg w i ch t c s' .tau kd ret)
    (hf : st.fits cfg kd) (hc : ∀ c, st.cpu = some c → ret = c) : K cfg limit { w with s := s' } := by
  obtain ⟨h1, h2⟩ := a.eff
  refine k.acted (w' := { w with s := s' }) hi a (set_same hi).symm rfl rfl rfl hf hc ?_ (k.ok i st hi) (fun h => h)
    (fun c h => bytes_same h1 h) (fun _ => ⟨rfl, rfl⟩) rfl
  intro a; rw [h2]

/-! ### Fast paths -/

theorem call_pre {w : W} (k : K cfg limit w) {i : Nat} {t : Slab.Thread} (hrun : Run cfg w i t) (hk : w.s.kind t.pc = .idle) :
    t.pc = .idle := Slab.kind_idle k.slab.K hrun.thr hk

theorem pop_K {w : W} (k : K cfg limit w) {i x : Nat} {again : Option Nat} (hi : w.th[i]? = some (.pop x again))
    (hr : ∃ t : Slab.Thread, w.s.thr[i]? = some t ∧ t.cpu ≠ none) (ch : Ch) (hv : 2 ≤ ch.s.op → Valid cfg.slab.nc ch.s.k) :
    ∃ w' out, stepFast cfg w i ch (.pop x again) = some (w', out) ∧ K cfg limit w' := by
  obtain ⟨t, c, s', out, kd, ret, a, hfit, hcpu⟩ := k.acts hi hr ch.s (fun _ => hv)
  have hok : cfg.Used x := k.ok i _ hi
  have hfit : w.s.kind t.pc = .pop x := hfit
  have haf := a.after; rw [hfit] at haf
  have hret := a.rets (by rw [hfit]; exact fun h => by cases h)
  simp only [stepFast, W.act, a.step]
  rcases haf with ⟨rfl, rfl⟩ | ⟨o, rfl, rfl⟩
  · exact ⟨_, _, rfl, k.silent hi a rfl (fun c e => by rw [hret]; exact hcpu c e)⟩
  · cases o with
    | none =>
      obtain ⟨y, h1, h2, h3, h4⟩ := a.eff
      refine ⟨_, _, rfl, k.acted hi a rfl rfl rfl rfl ?_ ?_ ?_ ?_ ?_ (fun c h => bytes_same h2 h) ?_ ?_⟩
      · cases again <;> rfl
      · intro c e
        cases again with
        | none => cases e
        | some c' => rw [hret]; exact hcpu c e
      · intro b; rw [h3]; cases again <;> rfl
      · cases again <;> exact hok
      · cases again <;> exact fun h => h
      · intro c; cases again <;> exact ⟨rfl, rfl⟩
      · cases again <;> rfl
    | some o =>
      obtain ⟨y, h1, h2, h3, h4, h5, h6⟩ := a.eff
      have hy : y = x := by
        have hk := Slab.kind_regs w.s t.pc
        rw [hfit] at hk
        have hk : t.pc.cls = some x := hk
        rw [h1] at hk; injection hk
      subst hy
      refine ⟨_, _, rfl, k.acted (st' := .idle) hi a rfl rfl rfl rfl rfl ?_ ?_ trivial (fun h => by cases h) (fun c h => bytes_keep h2 h6 h) (fun _ => ⟨rfl, rfl⟩) rfl⟩
      · intro c e; cases e
      · intro b
        show s'.held.count b + _ + 0 = w.s.held.count b + ((y, o) :: w.user).count b + 0
        rw [h3, List.count_cons, List.count_cons]; omega

theorem push_K {w : W} (k : K cfg limit w) {i x o : Nat} {again : Option Nat} (hi : w.th[i]? = some (.push x o again))
    (hr : ∃ t : Slab.Thread, w.s.thr[i]? = some t ∧ t.cpu ≠ none) (ch : Ch) (hv : 2 ≤ ch.s.op → Valid cfg.slab.nc ch.s.k) :
    ∃ w' out, stepFast cfg w i ch (.push x o again) = some (w', out) ∧ K cfg limit w' := by
  obtain ⟨t, c, s', out, kd, ret, a, hfit, hcpu⟩ := k.acts hi hr ch.s (fun _ => hv)
  have hok : cfg.Used x := k.ok i _ hi
  have hfit : w.s.kind t.pc = .push x o := hfit
  have haf := a.after; rw [hfit] at haf
  have hret := a.rets (by rw [hfit]; exact fun h => by cases h)
  have hhand : t.pc.hand = [(x, o)] := by
    have hk := Slab.kind_regs w.s t.pc
    rw [hfit] at hk
    exact hk.1
  simp only [stepFast, W.act, a.step]
  rcases haf with ⟨rfl, rfl⟩ | ⟨b, rfl, rfl⟩
  · exact ⟨_, _, rfl, k.silent hi a rfl (fun c e => by rw [hret]; exact hcpu c e)⟩
  · cases b with
    | true =>
      obtain ⟨y, z, h1, h2, h3, h4, h5, h6, h7⟩ := a.eff
      refine ⟨_, _, rfl, k.acted (st' := .idle) hi a rfl rfl rfl rfl rfl ?_ ?_ trivial (fun h => by cases h) (fun c h => bytes_keep h3 h7 h) (fun _ => ⟨rfl, rfl⟩) rfl⟩
      · intro c e; cases e
      · intro b; rw [h4]; rfl
    | false =>
      obtain ⟨y, z, h1, h2, h3, h4, h5⟩ := a.eff
      rw [hhand] at h1
      injection h1 with h1
      injection h1 with e1 e2
      subst e1 e2
      refine ⟨_, _, rfl, k.acted hi a rfl rfl rfl rfl ?_ ?_ ?_ ?_ ?_ (fun c h => bytes_same h3 h) ?_ ?_⟩
      · cases again <;> rfl
      · intro c e
        cases again with
        | none => cases e
        | some c' => rw [hret]; exact hcpu c e
      · intro b; rw [h4]
        have key : ((x, o) :: w.s.held).count b + w.user.count b + 0 = w.s.held.count b + w.user.count b + [(x, o)].count b := by
          rw [List.count_cons, List.count_cons]; simp; omega
        cases again <;> exact key
      · cases again <;> exact hok
      · cases again <;> exact fun h => h
      · intro c; cases again <;> exact ⟨rfl, rfl⟩
      · cases again <;> rfl

/-- A move that touches nothing but the thread's own variables. -/
theorem K.local {w : W} (k : K cfg limit w) {i : Nat} {st st' : St} (hi : w.th[i]? = some st)
    (hf : ∀ kd, st.fits cfg kd → st'.fits cfg kd) (hc : ∀ c, st'.cpu = some c → st.cpu = some c)
    (hh : st'.hand.Perm st.hand) (hok : st'.OK cfg) (hone : st'.isSteal = true → st.isSteal = true)
    (hb : ∀ c, st'.purse c = st.purse c ∧ st'.owed c = st.owed c) (hsum : st'.moving = st.moving) :
    K cfg limit (w.go i st') := by
  refine k.stay hi rfl rfl hf hc ?_ hok (fun h => Or.inl (hone h)) ?_ (by rw [hsum]; rfl)
  · intro a; rw [hh.count_eq a]; rfl
  · intro c _; rw [(hb c).1, (hb c).2]; rfl

theorem Req.hand_mem {q : Req} {x : Nat × Nat} (h : x ∈ q.hand) : q = .free x.1 x.2 := by
  cases q
  · cases h
  · simp only [Req.hand, List.mem_singleton] at h; rw [h]

theorem slow_K {w : W} (k : K cfg limit w) {i : Nat} {q : Req} (hi : w.th[i]? = some (.slow q))
    (hr : ∃ t : Slab.Thread, w.s.thr[i]? = some t ∧ t.cpu ≠ none) (ch : Ch) :
    ∃ w' out, stepFast cfg w i ch (.slow q) = some (w', out) ∧ K cfg limit w' := by
  have hok : cfg.Used q.cls := k.ok i _ hi
  simp only [stepFast]
  split
  · refine ⟨_, _, rfl, ?_⟩
    cases q
    · exact k.local (st' := .direct _) hi (fun _ h => h) (fun _ h => by cases h) (.refl _) hok (fun h => h) (fun _ => ⟨rfl, rfl⟩) rfl
    · exact k.local (st' := .sendOne _ _) hi (fun _ h => h) (fun _ h => by cases h) (.refl _) hok (fun h => h) (fun _ => ⟨rfl, rfl⟩) rfl
  · obtain ⟨t, hrun, hfit, hcpu⟩ := k.run hi hr
    have hp : Slab.Pre cfg.slab w.s (.call i .cache) := ⟨t, hrun.thr, call_pre k hrun hfit, hrun.cpu, trivial⟩
    obtain ⟨s', out, e, hu, hsame, hheld, hev⟩ := Slab.call_under k.slab hrun.thr hp
    have hheld : s'.held = w.s.held := hheld
    rcases hu with ⟨hu, rfl⟩ | ⟨-, v, hu, rfl⟩
    · refine ⟨({ w with s := s' } : W).go i (.caching q), .tau, by simp only [W.call, e], ?_⟩
      refine k.next hi rfl hu rfl (fun _ h => by cases h) ?_ (fun x hx => k.used x (hev.mem_iff.mp hx)) hok
        (fun h => by cases h) ?_ rfl
      · intro a
        show s'.held.count a + _ + q.hand.count a = _ + w.user.count a + q.hand.count a
        rw [hheld]
      · intro c h
        show w.avail c + bytes cfg s' c + 0 + _ + 0 = _ + _ + 0 + w.cap c + 0
        rw [bytes_same hsame h]
    · refine ⟨({ w with s := s' } : W).go i (.upd q v), .tau, by simp only [W.call, e], ?_⟩
      refine k.next hi rfl hu rfl (fun c h => ?_) ?_ (fun x hx => k.used x (hev.mem_iff.mp hx)) hok
        (fun h => by cases h) ?_ rfl
      · injection h
      · intro a
        show s'.held.count a + _ + q.hand.count a = _ + w.user.count a + q.hand.count a
        rw [hheld]
      · intro c h
        show w.avail c + bytes cfg s' c + 0 + _ + 0 = _ + _ + 0 + w.cap c + 0
        rw [bytes_same hsame h]

theorem caching_K {w : W} (k : K cfg limit w) {i : Nat} {q : Req} (hi : w.th[i]? = some (.caching q))
    (hr : ∃ t : Slab.Thread, w.s.thr[i]? = some t ∧ t.cpu ≠ none) (ch : Ch) (hv : 2 ≤ ch.s.op → Valid cfg.slab.nc ch.s.k) :
    ∃ w' out, stepFast cfg w i ch (.caching q) = some (w', out) ∧ K cfg limit w' := by
  obtain ⟨t, c, s', out, kd, ret, a, hfit, hcpu⟩ := k.acts hi hr ch.s (fun _ => hv)
  have hok : cfg.Used q.cls := k.ok i _ hi
  have hfit : w.s.kind t.pc = .cache := hfit
  have haf := a.after; rw [hfit] at haf
  simp only [stepFast, W.act, a.step]
  rcases haf with ⟨rfl, rfl⟩ | ⟨v, rfl, rfl⟩
  · exact ⟨_, _, rfl, k.silent hi a rfl (fun c e => by cases e)⟩
  · obtain ⟨h1, h2⟩ := a.eff
    cases v with
    | none =>
      refine ⟨_, _, rfl, ?_⟩
      cases q with
      | alloc x =>
        refine k.acted (st' := .direct x) hi a rfl rfl rfl rfl rfl (fun _ h => by cases h) ?_ hok (fun h => by cases h) (fun c h => bytes_same h1 h) (fun _ => ⟨rfl, rfl⟩) rfl
        intro b; rw [h2]; rfl
      | free x o =>
        refine k.acted (st' := .sendOne x o) hi a rfl rfl rfl rfl rfl (fun _ h => by cases h) ?_ hok (fun h => by cases h) (fun c h => bytes_same h1 h) (fun _ => ⟨rfl, rfl⟩) rfl
        intro b; rw [h2]; rfl
    | some v =>
      refine ⟨_, _, rfl, k.acted (st' := .retry q v) hi a rfl rfl rfl rfl rfl ?_ ?_ hok (fun h => by cases h) (fun c h => bytes_same h1 h) (fun _ => ⟨rfl, rfl⟩) rfl⟩
      · intro c e; injection e with e; rw [a.cached v rfl]; exact e
      · intro b; rw [h2]; rfl

theorem retry_K {w : W} (k : K cfg limit w) {i c : Nat} {q : Req} (hi : w.th[i]? = some (.retry q c))
    (hr : ∃ t : Slab.Thread, w.s.thr[i]? = some t ∧ t.cpu ≠ none) (ch : Ch) :
    ∃ w' out, stepFast cfg w i ch (.retry q c) = some (w', out) ∧ K cfg limit w' := by
  have hok : cfg.Used q.cls := k.ok i _ hi
  obtain ⟨t, hrun, hfit, hcpu⟩ := k.run hi hr
  have hpc := call_pre k hrun hfit
  cases q with
  | alloc x =>
    simp only [stepFast]
    exact k.start hi hr ⟨t, hrun.thr, hpc, hrun.cpu, hok.1⟩ (fun h => by cases h) rfl rfl rfl (fun _ h => h) (fun _ => rfl) hok
      (fun h => by cases h) (fun _ _ => rfl) rfl
  | free x o =>
    simp only [stepFast]
    have hm : (x, o) ∈ w.s.held := k.hand_mem hi (by simp [St.hand, Req.hand])
    refine k.start hi hr ⟨t, hrun.thr, hpc, hrun.cpu, hok.1, (k.hand_used hm).2, hm⟩ (fun h => by cases h) rfl rfl rfl (fun _ h => h) ?_ hok
      (fun h => by cases h) (fun _ _ => rfl) rfl
    intro a
    show (w.s.held.erase (x, o)).count a + _ + [(x, o)].count a = _ + _ + 0
    have h1 := List.count_pos_iff.mpr hm
    rw [List.count_erase]
    by_cases e : a = (x, o)
    · subst e; simp; omega
    · have e' : ¬ (x, o) = a := fun h => e h.symm
      rw [List.count_cons]; simp only [beq_iff_eq, if_neg e', List.count_nil]; omega

theorem sendOne_K {w : W} (k : K cfg limit w) {i x o : Nat} (hi : w.th[i]? = some (.sendOne x o)) (ch : Ch) :
    ∃ w' out, stepFast cfg w i ch (.sendOne x o) = some (w', out) ∧ K cfg limit w' := by
  have hok : cfg.Used x := k.ok i _ hi
  obtain ⟨w', e, hK⟩ := k.release (l := [o]) (c := x) (st' := .fdone ⟨x, o, 1, 1, [], [], [o]⟩) hi (fun h => by cases h) (show 1 ≤ 128 by decide)
    (fun _ h => h) (fun _ h => by cases h) (fun a => rfl) ⟨⟨hok, .refl _, rfl, Nat.le_refl _⟩, rfl⟩ (fun h => by cases h) (fun _ => ⟨rfl, rfl⟩) rfl
  exact ⟨_, _, by simp only [stepFast, e, Option.map_some]; rfl, hK⟩

/-! ### Growing -/

theorem increase_pos {alloc : Bool} {capacity mx batch : Nat} {byBatch : Bool} {n : Nat} (hb : 1 ≤ batch)
    (h : increase alloc capacity mx batch byBatch = some n) : 0 < n := by
  unfold increase at h
  split at h
  · rename_i hc
    injection h with h
    subst h
    split
    · split <;> omega
    · split <;> omega
  · cases h

theorem upd_K {w : W} (k : K cfg limit w) {i c : Nat} {q : Req} (hi : w.th[i]? = some (.upd q c)) (ch : Ch) :
    ∃ w' out, stepGrow cfg w i ch (.upd q c) = some (w', out) ∧ K cfg limit w' := by
  have hok : cfg.Used q.cls := k.ok i _ hi
  simp only [stepGrow]
  split
  · rename_i inc he
    have := increase_pos hok.2.2.1 he
    exact ⟨_, _, rfl, k.local hi (fun _ h => h) (fun _ h => h) (.refl _) ⟨hok, this⟩ (fun h => h) (fun _ => ⟨rfl, rfl⟩) rfl⟩
  · exact ⟨_, _, rfl, k.local hi (fun _ h => h) (fun _ h => by cases h) (.refl _) hok (fun h => h) (fun _ => ⟨rfl, rfl⟩) rfl⟩

theorem grow_K {w : W} (k : K cfg limit w) {i c succ inc : Nat} {q : Req} (hi : w.th[i]? = some (.grow q c succ inc))
    (hr : ∃ t : Slab.Thread, w.s.thr[i]? = some t ∧ t.cpu ≠ none) (ch : Ch) :
    ∃ w' out, stepGrow cfg w i ch (.grow q c succ inc) = some (w', out) ∧ K cfg limit w' := by
  obtain ⟨hok, hinc⟩ : cfg.Used q.cls ∧ 0 < inc := k.ok i _ hi
  obtain ⟨t, hrun, hfit, hcpu⟩ := k.run hi hr
  have hpc := call_pre k hrun hfit
  have hsz := hok.2.1
  simp only [stepGrow]
  split
  · exact ⟨_, _, rfl, k.local hi (fun _ h => h) (fun _ h => by cases h) (.refl _) hok (fun h => h) (fun _ => ⟨rfl, rfl⟩) rfl⟩
  · rename_i hgot
    have hge : cfg.size q.cls ≤ subtractAtLeast (w.avail c) (cfg.size q.cls) (inc * cfg.size q.cls) := by
      unfold subtractAtLeast at hgot ⊢
      split
      · rename_i h; rw [if_pos h] at hgot; exact absurd rfl hgot
      · have : 1 * cfg.size q.cls ≤ inc * cfg.size q.cls := Nat.mul_le_mul_right _ hinc
        omega
    have hle : subtractAtLeast (w.avail c) (cfg.size q.cls) (inc * cfg.size q.cls) ≤ w.avail c ∧
        subtractAtLeast (w.avail c) (cfg.size q.cls) (inc * cfg.size q.cls) ≤ inc * cfg.size q.cls := by
      unfold subtractAtLeast; split <;> omega
    have hdiv : subtractAtLeast (w.avail c) (cfg.size q.cls) (inc * cfg.size q.cls) / cfg.size q.cls ≤ inc :=
      Nat.div_le_of_le_mul (Nat.le_trans hle.2 (Nat.le_of_eq (Nat.mul_comm ..)))
    have hdiv1 : 1 ≤ subtractAtLeast (w.avail c) (cfg.size q.cls) (inc * cfg.size q.cls) / cfg.size q.cls :=
      (Nat.one_le_div_iff hsz).mpr hge
    rw [if_neg (by omega)]
    refine k.start (st' := .growing q c succ _ _) hi hr ⟨t, hrun.thr, hpc, hrun.cpu, hok.1⟩ (fun h => by cases h) rfl rfl rfl (fun _ h => h) (fun _ => rfl)
      ⟨hok, Nat.div_mul_le_self ..⟩ (fun h => by cases h) ?_ rfl
    intro c' _
    generalize subtractAtLeast (w.avail c) (cfg.size q.cls) (inc * cfg.size q.cls) = g at *
    show upd w.avail c (w.avail c - g) c' + (if c = c' then g else 0) + w.cap c' + 0 = w.avail c' + 0 + w.cap c' + 0
    unfold upd
    by_cases e : c' = c
    · subst e; rw [if_pos rfl, if_pos rfl]; omega
    · rw [if_neg e, if_neg (fun a => e a.symm)]

theorem growing_K {w : W} (k : K cfg limit w) {i c succ len got : Nat} {q : Req} (hi : w.th[i]? = some (.growing q c succ len got))
    (hr : ∃ t : Slab.Thread, w.s.thr[i]? = some t ∧ t.cpu ≠ none) (ch : Ch) (hv : 2 ≤ ch.s.op → Valid cfg.slab.nc ch.s.k) :
    ∃ w' out, stepGrow cfg w i ch (.growing q c succ len got) = some (w', out) ∧ K cfg limit w' := by
  obtain ⟨t, cc, s', out, kd, ret, a, hfit, hcpu⟩ := k.acts hi hr ch.s (fun _ => hv)
  obtain ⟨hok, hlen⟩ : cfg.Used q.cls ∧ len * cfg.size q.cls ≤ got := k.ok i _ hi
  have hfit : w.s.kind t.pc = .grow q.cls len := hfit
  have haf := a.after; rw [hfit] at haf
  have hret := a.rets (by rw [hfit]; exact fun h => by cases h)
  have hregs := Slab.kind_regs w.s t.pc
  rw [hfit] at hregs
  simp only [stepGrow, W.act, a.step]
  rcases haf with ⟨rfl, rfl⟩ | ⟨n, hn, rfl, rfl⟩
  · exact ⟨_, _, rfl, k.silent hi a rfl (fun c e => by rw [hret]; exact hcpu c e)⟩
  · have hmul : n * cfg.size q.cls ≤ len * cfg.size q.cls := Nat.mul_le_mul_right _ hn
    simp only
    rw [if_neg (by omega)]
    obtain ⟨y, h1, h2, h3, h4, h5, h6⟩ := a.eff
    have hy : y = q.cls := by
      have := hregs.1
      rw [h1] at this; injection this
    subst hy
    obtain ⟨hb1, hb2⟩ := bytes_but h2 hok.1 a.cpu
    refine ⟨_, _, rfl, k.next (st' := .grown q c succ (got - n * cfg.size q.cls)) hi rfl a.under rfl ?_ ?_ a.used hok (fun h => by cases h) ?_ rfl⟩
    · intro c' e; rw [hret]; exact hcpu c' e
    · intro b
      show s'.held.count b + _ + q.hand.count b = _ + w.user.count b + q.hand.count b
      rw [h3]
    · intro c' hc'
      show w.avail c' + bytes cfg s' c' + (if c = c' then got - n * cfg.size q.cls else 0) + w.cap c' + 0 =
        w.avail c' + bytes cfg w.s c' + (if c = c' then got else 0) + w.cap c' + 0
      have hrc : t.ret = c := hcpu c rfl
      rcases a.grew n rfl with h | h
      · subst h
        have : bytes cfg s' c' = bytes cfg w.s c' := bytes_keep h2 (by rw [h5]; rfl) hc'
        rw [this]; simp
      · have hcc : c = cc := by rw [← hrc, h]
        subst hcc
        by_cases e : c = c'
        · subst e
          rw [if_pos rfl, if_pos rfl]
          rw [h5, Nat.mul_add] at hb2
          have : cfg.size q.cls * n = n * cfg.size q.cls := Nat.mul_comm ..
          omega
        · rw [if_neg e, if_neg e, hb1 c' hc' (fun h => e h.symm)]

theorem addAvail_K {w : W} (hcfg : cfg.OK limit) (k : K cfg limit w) {i : Nat} {st : St} (hi : w.th[i]? = some st) {c b : Nat}
    (hc : c < cfg.slab.n) (hb : b ≤ st.purse c) : w.avail c + b < 2 ^ 64 := by
  have h1 := k.bound hc
  have h2 := k.purse_le hi c
  have h3 := hcfg.fits
  omega

theorem cpu_lt {w : W} (hcfg : cfg.OK limit) (k : K cfg limit w) {i : Nat} {st : St} (hi : w.th[i]? = some st) {c : Nat}
    (h : st.cpu = some c) : c < cfg.slab.n := by
  obtain ⟨t, h1, h2, h3⟩ := k.fit i st hi
  rw [← h3 c h]
  exact (k.slab.ret_lt hcfg.cpus i t h1).1

theorem grown_K {w : W} (hcfg : cfg.OK limit) (k : K cfg limit w) {i c succ b : Nat} {q : Req} (hi : w.th[i]? = some (.grown q c succ b)) (ch : Ch) :
    ∃ w' out, stepGrow cfg w i ch (.grown q c succ b) = some (w', out) ∧ K cfg limit w' := by
  have hok : cfg.Used q.cls := k.ok i _ hi
  have hc := cpu_lt hcfg k hi (c := c) rfl
  have hlt := addAvail_K hcfg k hi (c := c) (b := b) hc (by simp [St.purse])
  refine ⟨_, _, by simp only [stepGrow, W.addAvail, if_pos hlt, Option.map_some]; rfl, ?_⟩
  refine k.stay (st' := .target q succ) hi rfl rfl (fun _ h => h) (fun _ h => by cases h) (fun _ => rfl) hok (fun h => by cases h) ?_ rfl
  intro c' _
  show upd w.avail c (w.avail c + b) c' + 0 + w.cap c' + 0 = w.avail c' + (if c = c' then b else 0) + w.cap c' + 0
  unfold upd
  by_cases e : c' = c
  · subst e; rw [if_pos rfl, if_pos rfl]; omega
  · rw [if_neg e, if_neg (fun a => e a.symm)]

theorem targetCount_bounds {capacity batch succ : Nat} (hb : 1 ≤ batch) :
    1 ≤ targetCount capacity batch succ ∧ targetCount capacity batch succ ≤ capacity + 1 := by
  unfold targetCount
  have h1 : 0 < 2 ^ min succ 10 := Nat.two_pow_pos _
  have h2 : 1 * 1 ≤ 2 ^ min succ 10 * batch := Nat.mul_le_mul h1 hb
  split
  · omega
  · generalize 2 ^ min succ 10 * batch = m at *
    omega

theorem target_K {w : W} (k : K cfg limit w) {i succ : Nat} {q : Req} (hi : w.th[i]? = some (.target q succ)) (ch : Ch) :
    ∃ w' out, stepGrow cfg w i ch (.target q succ) = some (w', out) ∧ K cfg limit w' := by
  have hok : cfg.Used q.cls := k.ok i _ hi
  obtain ⟨b1, b2⟩ := targetCount_bounds (capacity := ch.cap) (succ := succ) hok.2.2.1
  simp only [stepGrow]
  rw [if_neg (by omega)]
  cases q with
  | alloc x =>
    refine ⟨_, _, rfl, k.local (st' := .fetch ⟨x, _, 0, none, [], [], []⟩) hi (fun _ h => h) (fun _ h => by cases h) (.refl _) ⟨⟨hok, .refl _, rfl, Nat.zero_le _, fun _ => rfl⟩, ?_, rfl⟩
      (fun h => h) (fun _ => ⟨rfl, rfl⟩) rfl⟩
    exact b1
  | free x o =>
    refine ⟨_, _, rfl, k.local (st' := .gather ⟨x, o, _, 0, [o], [], []⟩) hi (fun _ h => h) (fun _ h => by cases h) (.refl _) ⟨⟨hok, .refl _, rfl, ?_⟩, ?_, ?_⟩
      (fun h => h) (fun _ => ⟨rfl, rfl⟩) rfl⟩
    · exact b1
    · exact b1
    · show 1 ≤ 128; decide

end Verif.CpuCache
