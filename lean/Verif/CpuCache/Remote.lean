import Verif.CpuCache.Batch
/-! Draining, resizing and stealing preserve the invariant. -/
namespace Verif.CpuCache
open Slab (Valid GoodObj Kind Sub Under Same SameBut Effect After)

variable {cfg : Cfg} {limit : Nat}

theorem idle_iff {w : W} {s' : Slab.W} {i : Nat} {kd : Kind} {ret : Nat} (u : Under cfg.slab w.s s' i kd ret) :
    ({ w with s := s' } : W).slabIdle i = true ↔ kd = .idle := by
  obtain ⟨t, h1, h2, -⟩ := u.self
  simp only [W.slabIdle, h1, decide_eq_true_eq]
  constructor
  · intro h; rw [h] at h2; exact h2.symm
  · intro h; rw [h] at h2; exact Slab.kind_idle u.reach.K h1 h2

theorem ready_iff {w : W} {c : Nat} : w.ready c = true ↔ ∃ o, w.s.rem c = some (o, .ready false) := by
  unfold W.ready
  constructor
  · intro h
    split at h
    · rename_i o e; exact ⟨o, e⟩
    · cases h
  · rintro ⟨o, e⟩; rw [e]

theorem owed_steal {st : St} (h : st.isSteal = false) (c : Nat) : st.owed c = 0 := by
  cases st <;> first | rfl | cases h

/-- The only thread that moves bytes between CPUs. -/
theorem K.owed_zero {w : W} (k : K cfg limit w) {i : Nat} {st : St} (hi : w.th[i]? = some st) (hs : st.isSteal = true) {c : Nat}
    (h : st.owed c = 0) : w.owed c = 0 := by
  unfold W.owed
  rw [List.sum_eq_zero_iff_forall_eq_nat]
  intro x hx
  rw [List.mem_map] at hx
  obtain ⟨y, hy, rfl⟩ := hx
  obtain ⟨j, hj⟩ := List.getElem?_of_mem hy
  by_cases e : y.isSteal = true
  · have := k.one i j st y hi hj hs e
    subst this
    rw [hi] at hj; injection hj with hj; subst hj; exact h
  · exact owed_steal (by simpa using e) c

/-- `ReleaseToBackingCache` of the first of the batches. -/
theorem outs_K {w : W} (k : K cfg limit w) {i x : Nat} {l : List Nat} {out : List (Nat × List Nat)} {st st' : St} (hi : w.th[i]? = some st)
    (ho : OutOK ((x, l) :: out)) (hh1 : st.hand = ((x, l) :: out).flatMap fun y => pairs y.1 y.2)
    (hh2 : st'.hand = out.flatMap fun y => pairs y.1 y.2)
    (hf : ∀ kd, st.fits cfg kd → st'.fits cfg kd) (hc : st'.cpu = none)
    (hok : st'.OK cfg) (hone : st'.isSteal = true → st.isSteal = true)
    (hb : ∀ c, st'.purse c = st.purse c ∧ st'.owed c = st.owed c) (hsum : st'.moving = st.moving) :
    ∃ w', w.release x l = some (w', .toBacking x l) ∧ K cfg limit (w'.go i st') := by
  obtain ⟨h1, h2⟩ := ho _ (List.mem_cons_self ..)
  refine k.release hi h1 h2 hf (fun _ h => by rw [hc] at h; cases h) ?_ hok hone hb hsum
  intro a
  rw [hh1, hh2, List.flatMap_cons, List.count_append]

theorem OutOK.tail {x : Nat × List Nat} {out : List (Nat × List Nat)} (h : OutOK (x :: out)) : OutOK out :=
  fun y hy => h y (List.mem_cons_of_mem _ hy)

theorem chunks_spec {b : Nat} (hb : 1 ≤ b) : ∀ (n : Nat) (l : List Nat), l.length ≤ n →
    (chunks b n l).flatten = l ∧ ∀ x ∈ chunks b n l, x ≠ [] ∧ x.length ≤ b := by
  intro n
  induction n with
  | zero =>
    intro l hl
    have : l = [] := List.length_eq_zero_iff.mp (by omega)
    subst this
    exact ⟨rfl, fun x hx => by cases hx⟩
  | succ n ih =>
    intro l hl
    simp only [chunks]
    by_cases e : l = []
    · rw [if_pos e]; subst e; exact ⟨rfl, fun x hx => by cases hx⟩
    · rw [if_neg e]
      have hlen : 0 < l.length := List.length_pos_iff.mpr e
      obtain ⟨h1, h2⟩ := ih (l.drop b) (by rw [List.length_drop]; omega)
      refine ⟨by rw [List.flatten_cons, h1, List.take_append_drop], ?_⟩
      intro x hx
      rcases List.mem_cons.mp hx with rfl | hx
      · refine ⟨?_, by rw [List.length_take]; omega⟩
        intro h
        have : (l.take b).length = 0 := by rw [h]; rfl
        rw [List.length_take] at this; omega
      · exact h2 x hx

theorem flat_pairs (k : Nat) (ls : List (List Nat)) :
    ((ls.map fun b => (k, b)).flatMap fun y => pairs y.1 y.2) = pairs k ls.flatten := by
  induction ls with
  | nil => rfl
  | cons a ls ih =>
    rw [List.map_cons, List.flatMap_cons, ih, List.flatten_cons]
    simp [pairs]

/-- `DrainHandler`. -/
theorem handle_K {w : W} (hcfg : cfg.OK limit) (k : K cfg limit w) {i : Nat} {st : St} (hi : w.th[i]? = some st) {ch : Slab.Ch} {t : Slab.Thread}
    {c0 c x cap : Nat} {l : List Nat} {s' : Slab.W} {kd : Kind} {ret : Nat} (a : Acted cfg w i ch t c0 s' (.handed c x l cap) kd ret)
    (hhand : st.hand = []) (F : List (Nat × List Nat) → St) (hF : ∀ out, (F out).hand = out.flatMap fun y => pairs y.1 y.2)
    (hf : ∀ out, (F out).fits cfg kd) (hc : ∀ out, (F out).cpu = none) (hok : ∀ out, OutOK out → (F out).OK cfg) (hone : ∀ out, (F out).isSteal = false)
    (hb : ∀ out c, (F out).purse c = st.purse c ∧ (F out).owed c = st.owed c) (hsum : ∀ out, (F out).moving = st.moving) :
    ∃ w1 out, ({ w with s := s' } : W).handle cfg c x l cap = some (w1, out) ∧ K cfg limit (w1.go i (F out)) := by
  obtain ⟨⟨hcn, hv⟩, h2, h3, -, h5⟩ := a.eff
  obtain ⟨hb1, hb2⟩ := bytes_but h2 hv hcn
  rw [h5, Nat.mul_add] at hb2
  have hmul : cfg.size x * cap = cap * cfg.size x := Nat.mul_comm ..
  have hbound := k.bound hcn
  have hfits := hcfg.fits
  have hlt : w.avail c + cap * cfg.size x < 2 ^ 64 := by omega
  have hused : l ≠ [] → cfg.Used x := by
    intro hl
    obtain ⟨o, ho⟩ := List.exists_mem_of_ne_nil l hl
    have : (x, o) ∈ s'.held := by rw [h3]; exact List.mem_append_left _ (List.mem_map.mpr ⟨o, ho, rfl⟩)
    exact a.used (x, o) (by unfold Slab.W.everything; exact List.mem_append_left _ (List.mem_append_left _ this))
  have hfl : (chunks (cfg.batch x) l.length l).flatten = l ∧
      OutOK ((chunks (cfg.batch x) l.length l).map fun b => (x, b)) := by
    by_cases e : l = []
    · subst e; exact ⟨rfl, fun y hy => by cases hy⟩
    · have hu := hused e
      obtain ⟨e1, e2⟩ := chunks_spec hu.2.2.1 l.length l (Nat.le_refl _)
      refine ⟨e1, ?_⟩
      intro y hy
      rw [List.mem_map] at hy
      obtain ⟨z, hz, rfl⟩ := hy
      exact ⟨(e2 z hz).1, Nat.le_trans (e2 z hz).2 hu.2.2.2⟩
  refine ⟨_, _, by
    simp only [W.handle]
    rw [if_neg (by rintro ⟨e, e'⟩; have := (hused e).2.2.1; omega)]
    simp only [W.addAvail, if_pos hlt, Option.map_some]; rfl, ?_⟩
  refine k.next hi rfl a.under (hf _) (fun _ h => by rw [hc] at h; cases h) ?_ a.used (hok _ hfl.2) (fun h => by rw [hone] at h; cases h) ?_ ?_
  · intro b
    show s'.held.count b + _ + _ = _ + w.user.count b + _
    rw [hF, flat_pairs, hfl.1, hhand, h3, List.count_append]
    simp only [pairs, List.count_nil]; omega
  · intro c' h
    show upd w.avail c (w.avail c + cap * cfg.size x) c' + bytes cfg s' c' + _ + _ + _ = _ + _ + _ + w.cap c' + _
    rw [(hb _ c').1, (hb _ c').2]
    unfold upd
    by_cases e : c' = c
    · subst e; rw [if_pos rfl]; omega
    · rw [if_neg e, hb1 c' h e]
  · rw [hsum]; rfl

/-- The lock of a CPU. -/
theorem lock_K {w : W} (k : K cfg limit w) {i c : Nat} {st st' : St} (hi : w.th[i]? = some st)
    (hr : ∃ t : Slab.Thread, w.s.thr[i]? = some t ∧ t.cpu ≠ none) (hfit : ∀ kd, st.fits cfg kd → kd = .idle) (hc : c < cfg.slab.n)
    (hl : w.lockFree c = true) (hf : st'.fits cfg (.remote c .none)) (hcpu : st'.cpu = none) (hh : st'.hand = st.hand) (hok : st'.OK cfg)
    (hone : st'.isSteal = true → st.isSteal = true)
    (hb : ∀ c, st'.purse c = st.purse c ∧ st'.owed c = st.owed c) (hsum : st'.moving = st.moving) :
    ∃ w' out, w.start cfg i (.remote c) st' = some (w', out) ∧ K cfg limit w' := by
  obtain ⟨t, hrun, hfit', -⟩ := k.run hi hr
  have hpc := call_pre k hrun (hfit _ hfit')
  simp only [W.lockFree, Bool.and_eq_true, Option.isNone_iff_eq_none] at hl
  refine k.start hi hr ⟨t, hrun.thr, hpc, hrun.cpu, hc, hl.1, hl.2⟩ (fun h => by cases h) rfl rfl hf (fun _ h => by rw [hcpu] at h; cases h) ?_ hok
    (fun h => Or.inl (hone h)) ?_ (by rw [hsum])
  · intro a; rw [hh]; rfl
  · intro c _; rw [(hb c).1, (hb c).2]

/-! ### `Drain` -/

theorem drain0_K {w : W} (k : K cfg limit w) {i c : Nat} (hi : w.th[i]? = some (.drain0 c))
    (hr : ∃ t : Slab.Thread, w.s.thr[i]? = some t ∧ t.cpu ≠ none) (ch : Ch) :
    ∃ w' out, stepCpu cfg w i ch (.drain0 c) = some (w', out) ∧ K cfg limit w' := by
  have hok : c < cfg.slab.n := k.ok i _ hi
  simp only [stepCpu]
  split
  · rename_i hl
    exact lock_K k hi hr (fun _ h => h) hok hl (Or.inl ⟨rfl, rfl⟩) rfl rfl ⟨hok, fun x hx => by cases hx⟩ (fun h => by cases h) (fun _ => ⟨rfl, rfl⟩) rfl
  · exact ⟨_, _, rfl, k⟩

theorem drain_K {w : W} (hcfg : cfg.OK limit) (k : K cfg limit w) {i c b : Nat} {dn : Bool} {out : List (Nat × List Nat)}
    (hi : w.th[i]? = some (.drain c dn b out))
    (hr : ∃ t : Slab.Thread, w.s.thr[i]? = some t ∧ t.cpu ≠ none) (ch : Ch) (hv : 2 ≤ ch.s.op → Valid cfg.slab.nc ch.s.k) :
    ∃ w' o, stepCpu cfg w i ch (.drain c dn b out) = some (w', o) ∧ K cfg limit w' := by
  obtain ⟨hok, ho⟩ : c < cfg.slab.n ∧ OutOK out := k.ok i _ hi
  cases out with
  | cons x out =>
    obtain ⟨w', e, hK⟩ := outs_K (st' := .drain c dn b out) k hi ho rfl rfl (fun kd h => by
        rcases h with ⟨-, h⟩ | h
        · cases h
        · exact Or.inr h) rfl ⟨hok, ho.tail⟩ (fun h => by cases h) (fun _ => ⟨rfl, rfl⟩) rfl
    exact ⟨_, _, by simp only [stepCpu, e, Option.map_some]; rfl, hK⟩
  | nil =>
    obtain ⟨t, c0, s', out, kd, ret, a, hfit, -⟩ := k.acts hi hr (w.drainCh c dn ch.s) (fun _ => by
      unfold W.drainCh
      split
      · simp only; split <;> omega
      · exact hv)
    have tau : out = .tau → (kd = .idle ∨ kd = .remote c .none ∨ kd = .remote c .drain) →
        ∃ w' o, stepCpu cfg w i ch (.drain c dn b []) = some (w', o) ∧ K cfg limit w' := by
      intro e1 e2
      subst e1
      obtain ⟨h1, h2⟩ := a.eff
      simp only [stepCpu, W.act, a.step]
      by_cases e : kd = .idle
      · rw [if_pos ((idle_iff a.under).mpr e)]
        refine ⟨_, _, rfl, k.acted (st' := .idle) hi a rfl rfl rfl rfl e (fun _ h => by cases h) ?_ trivial (fun h => by cases h) (fun c h => bytes_same h1 h)
          (fun _ => ⟨rfl, rfl⟩) rfl⟩
        intro b; rw [h2]; rfl
      · rw [if_neg (fun h => e ((idle_iff a.under).mp h))]
        refine ⟨_, _, rfl, k.acted (st' := .drain c _ b []) hi a rfl rfl rfl rfl ?_ (fun _ h => by cases h) ?_ ⟨hok, ho⟩ (fun h => by cases h)
          (fun c h => bytes_same h1 h) (fun _ => ⟨rfl, rfl⟩) rfl⟩
        · rcases e2 with h | h | h
          · exact absurd h e
          · exact Or.inl ⟨h, rfl⟩
          · exact Or.inr h
        · intro b; rw [h2]; rfl
    have haf := a.after
    rcases hfit with ⟨h, -⟩ | h
    · rw [h] at haf
      obtain ⟨h1, h2⟩ := haf
      refine tau h1 ?_
      rcases h2 with ⟨h2, h3⟩ | ⟨h2, h3 | h3⟩
      · rw [h3]
        unfold W.drainCh
        rw [if_pos (ready_iff.mpr h2)]
        cases dn
        · exact Or.inr (Or.inr rfl)
        · exact Or.inr (Or.inl rfl)
      · exact Or.inr (Or.inl h3)
      · exact Or.inl h3
    · rw [h] at haf
      rcases haf with ⟨h1, h2⟩ | ⟨x, l, cap, h1, h2⟩
      · exact tau h1 (by rcases h2 with h2 | h2; exact Or.inr (Or.inr h2); exact Or.inr (Or.inl h2))
      · subst h1
        obtain ⟨w1, out, e, hK⟩ := handle_K hcfg k hi a rfl (fun out => .drain c (dn || ({ w with s := w.s } : W).ready c) (b + l.length * cfg.size x) out) (fun _ => rfl) (fun _ => Or.inr h2)
          (fun _ => rfl) (fun out ho => ⟨hok, ho⟩) (fun _ => rfl) (fun _ _ => ⟨rfl, rfl⟩) (fun _ => rfl)
        exact ⟨_, _, by simp only [stepCpu, W.act, a.step, e, Option.map_some]; rfl, hK⟩

/-! ### `ResizeCpuSizeClasses` -/

theorem classes0_K {w : W} (k : K cfg limit w) {i c av : Nat} (hi : w.th[i]? = some (.classes0 c av))
    (hr : ∃ t : Slab.Thread, w.s.thr[i]? = some t ∧ t.cpu ≠ none) (ch : Ch) :
    ∃ w' out, stepCpu cfg w i ch (.classes0 c av) = some (w', out) ∧ K cfg limit w' := by
  have hok : c < cfg.slab.n := k.ok i _ hi
  simp only [stepCpu]
  split
  · rename_i hl
    exact lock_K k hi hr (fun _ h => h) hok hl (Or.inl rfl) rfl rfl ⟨hok, fun x hx => by cases hx⟩ (fun h => by cases h) (fun _ => ⟨rfl, rfl⟩) rfl
  · exact ⟨_, _, rfl, k⟩

theorem classes1_K {w : W} (hcfg : cfg.OK limit) (k : K cfg limit w) {i c av : Nat} (hi : w.th[i]? = some (.classes1 c av)) (ch : Ch) :
    ∃ w' out, stepCpu cfg w i ch (.classes1 c av) = some (w', out) ∧ K cfg limit w' := by
  have hok : c < cfg.slab.n := k.ok i _ hi
  have hlt := addAvail_K hcfg k hi (c := c) (b := av) hok (by simp [St.purse])
  refine ⟨_, _, by simp only [stepCpu, W.addAvail, if_pos hlt, Option.map_some]; rfl, ?_⟩
  refine k.stay (st' := .idle) hi rfl rfl (fun _ h => h) (fun _ h => by cases h) (fun _ => rfl) trivial (fun h => by cases h) ?_ rfl
  intro c' _
  show upd w.avail c (w.avail c + av) c' + 0 + w.cap c' + 0 = w.avail c' + (if c = c' then av else 0) + w.cap c' + 0
  unfold upd
  by_cases e : c' = c
  · subst e; rw [if_pos rfl, if_pos rfl]; omega
  · rw [if_neg e, if_neg (fun a => e a.symm)]

theorem small_out {l : List Nat} (h : l.length ≤ 1) (x : Nat) : OutOK (if l = [] then [] else [(x, l)]) := by
  split
  · intro y hy; cases hy
  · rename_i e
    intro y hy
    rw [List.mem_singleton] at hy
    subst hy
    exact ⟨e, Nat.le_trans h (by decide)⟩

theorem small_hand {l : List Nat} (x : Nat) : ((if l = [] then [] else [(x, l)]).flatMap fun y => pairs y.1 y.2) = pairs x l := by
  split
  · rename_i e; subst e; rfl
  · simp

theorem ready_of {w : W} {c : Nat} (h : ∀ o, w.s.rem c ≠ some (o, .ready false)) : w.ready c = false := by
  cases e : w.ready c
  · rfl
  · obtain ⟨o, ho⟩ := ready_iff.mp e; exact absurd ho (h o)

theorem classesCh_kind (w : W) (c av : Nat) (ch : Slab.Ch) (hr : w.ready c = true) :
    (w.classesCh cfg c av ch).op = 0 ∨ ((w.classesCh cfg c av ch).op = 2 ∧ (w.classesCh cfg c av ch).len = 1) ∨
    ((w.classesCh cfg c av ch).op = 3 ∧ (w.classesCh cfg c av ch).len * cfg.size (w.classesCh cfg c av ch).k ≤ av) := by
  unfold W.classesCh
  rw [if_pos hr]
  split
  · rename_i h; exact Or.inr (Or.inl ⟨h.1, rfl⟩)
  · split
    · refine Or.inr (Or.inr ⟨rfl, ?_⟩)
      show min _ (av / cfg.size ch.k) * cfg.size ch.k ≤ av
      refine Nat.le_trans (Nat.mul_le_mul_right _ (Nat.min_le_right ..)) (Nat.div_mul_le_self ..)
    · exact Or.inl rfl

theorem classesCh_valid (w : W) (c av : Nat) (ch : Slab.Ch) (hv : 2 ≤ ch.op → Valid cfg.slab.nc ch.k) :
    2 ≤ (w.classesCh cfg c av ch).op → Valid cfg.slab.nc (w.classesCh cfg c av ch).k := by
  unfold W.classesCh
  split
  · split
    · exact hv
    · split
      · rename_i h; exact fun _ => hv (by omega)
      · intro h; simp at h
  · exact hv

set_option maxHeartbeats 400000 in
theorem classes_K {w : W} (k : K cfg limit w) {i c av : Nat} {out : List (Nat × List Nat)}
    (hi : w.th[i]? = some (.classes c av out))
    (hr : ∃ t : Slab.Thread, w.s.thr[i]? = some t ∧ t.cpu ≠ none) (ch : Ch) (hv : 2 ≤ ch.s.op → Valid cfg.slab.nc ch.s.k) :
    ∃ w' o, stepCpu cfg w i ch (.classes c av out) = some (w', o) ∧ K cfg limit w' := by
  obtain ⟨hok, ho⟩ : c < cfg.slab.n ∧ OutOK out := k.ok i _ hi
  cases out with
  | cons x out =>
    obtain ⟨w', e, hK⟩ := outs_K (st' := .classes c av out) k hi ho rfl rfl (fun kd h => h) rfl ⟨hok, ho.tail⟩ (fun h => by cases h) (fun _ => ⟨rfl, rfl⟩) rfl
    exact ⟨_, _, by simp only [stepCpu, e, Option.map_some]; rfl, hK⟩
  | nil =>
    obtain ⟨t, c0, s', out, kd, ret, a, hfit, -⟩ := k.acts hi hr (w.classesCh cfg c av ch.s) (fun _ => classesCh_valid w c av ch.s hv)
    have tau : out = .tau → (kd = .idle ∨ (St.classes c av []).fits cfg kd) →
        ∃ w' o, stepCpu cfg w i ch (.classes c av []) = some (w', o) ∧ K cfg limit w' := by
      intro e1 e2
      subst e1
      obtain ⟨h1, h2⟩ := a.eff
      simp only [stepCpu, W.act, a.step]
      by_cases e : kd = .idle
      · rw [if_pos ((idle_iff a.under).mpr e)]
        refine ⟨_, _, rfl, k.acted (st' := .classes1 c av) hi a rfl rfl rfl rfl e (fun _ h => by cases h) ?_ hok (fun h => by cases h) (fun c h => bytes_same h1 h)
          (fun _ => ⟨rfl, rfl⟩) rfl⟩
        intro b; rw [h2]; rfl
      · rw [if_neg (fun h => e ((idle_iff a.under).mp h))]
        refine ⟨_, _, rfl, k.silent hi a (e2.resolve_left e) (fun c e => by cases e)⟩
    have haf := a.after
    rcases hfit with h | ⟨x, h⟩ | ⟨x, len, h, hlen⟩
    · rw [h] at haf
      obtain ⟨h1, h2⟩ := haf
      refine tau h1 ?_
      rcases h2 with ⟨h2, h3⟩ | ⟨h2, h3 | h3⟩
      · right
        rcases classesCh_kind (cfg := cfg) w c av ch.s (ready_iff.mpr h2) with e | ⟨e, e'⟩ | ⟨e, e'⟩
        · rw [e] at h3; exact Or.inl h3
        · rw [e, e'] at h3; exact Or.inr (Or.inl ⟨_, h3⟩)
        · rw [e] at h3; exact Or.inr (Or.inr ⟨_, _, h3, e'⟩)
      · exact Or.inr (Or.inl h3)
      · exact Or.inl h3
    · rw [h] at haf
      rcases haf with ⟨h1, h2⟩ | ⟨l, hl, h1, h2⟩ | ⟨n, hn, h1, h2⟩
      · exact tau h1 (Or.inr (Or.inr (Or.inl ⟨x, h2⟩)))
      · subst h1
        obtain ⟨⟨hcn, hv⟩, e2, e3, -, e5⟩ := a.eff
        simp only [stepCpu, W.act, a.step]
        rw [if_neg (by omega)]
        refine ⟨_, _, rfl, k.acted (st' := .classes c av _) hi a rfl rfl rfl rfl (Or.inr (Or.inl ⟨x, h2⟩)) (fun _ h => by cases h) ?_ ⟨hok, small_out hl x⟩
          (fun h => by cases h) (fun c h => bytes_keep e2 e5.symm h) (fun _ => ⟨rfl, rfl⟩) rfl⟩
        intro b
        show s'.held.count b + _ + 0 = _ + w.user.count b + List.count b (List.flatMap _ _)
        rw [small_hand, e3, List.count_append]
        simp only [pairs]; omega
      · subst h1
        obtain ⟨⟨hcn, hv⟩, e2, e3, -, e5, -⟩ := a.eff
        obtain ⟨hb1, hb2⟩ := bytes_but e2 hv hcn
        rw [e5, Nat.mul_add] at hb2
        have hs : (if n = 0 then 0 else cfg.size x) = cfg.size x * n := by
          rcases (show n = 0 ∨ n = 1 by omega) with e | e <;> simp [e]
        simp only [stepCpu, W.act, a.step, hs]
        refine ⟨_, _, rfl, k.next (st' := .classes c (av + cfg.size x * n) []) hi rfl a.under (Or.inl h2) (fun _ h => by cases h) ?_ a.used ⟨hok, ho⟩ (fun h => by cases h) ?_ rfl⟩
        · intro b
          show s'.held.count b + _ + 0 = _ + w.user.count b + 0
          rw [e3]
        · intro c' h
          show w.avail c' + bytes cfg s' c' + (if c = c' then av + cfg.size x * n else 0) + w.cap c' + 0 =
            w.avail c' + bytes cfg w.s c' + (if c = c' then av else 0) + w.cap c' + 0
          by_cases e : c = c'
          · subst e; rw [if_pos rfl, if_pos rfl]; omega
          · rw [if_neg e, if_neg e, hb1 c' h (fun a => e a.symm)]
    · rw [h] at haf
      rcases haf with ⟨h1, h2⟩ | ⟨n, hn, h1, h2⟩
      · exact tau h1 (Or.inr (Or.inr (Or.inr ⟨x, len, h2, hlen⟩)))
      · subst h1
        obtain ⟨⟨hcn, hv⟩, e2, e3, -, e5, -⟩ := a.eff
        obtain ⟨hb1, hb2⟩ := bytes_but e2 hv hcn
        rw [e5, Nat.mul_add] at hb2
        have hmul : n * cfg.size x ≤ len * cfg.size x := Nat.mul_le_mul_right _ hn
        have hcm : cfg.size x * n = n * cfg.size x := Nat.mul_comm ..
        simp only [stepCpu, W.act, a.step]
        rw [if_neg (by omega)]
        refine ⟨_, _, rfl, k.next (st' := .classes c (av - n * cfg.size x) []) hi rfl a.under (Or.inl h2) (fun _ h => by cases h) ?_ a.used ⟨hok, ho⟩ (fun h => by cases h) ?_ rfl⟩
        · intro b
          show s'.held.count b + _ + 0 = _ + w.user.count b + 0
          rw [e3]
        · intro c' h
          show w.avail c' + bytes cfg s' c' + (if c = c' then av - n * cfg.size x else 0) + w.cap c' + 0 =
            w.avail c' + bytes cfg w.s c' + (if c = c' then av else 0) + w.cap c' + 0
          by_cases e : c = c'
          · subst e; rw [if_pos rfl, if_pos rfl]; omega
          · rw [if_neg e, if_neg e, hb1 c' h (fun a => e a.symm)]

/-! ### `StealFromOtherCache` -/

theorem stealCh_kind (w : W) (c : Nat) (more : Bool) (ch : Slab.Ch) (hr : w.ready c = true) :
    (w.stealCh c more ch).op = 0 ∨ ((w.stealCh c more ch).op = 2 ∧ (w.stealCh c more ch).len = 1) := by
  unfold W.stealCh
  rw [if_pos hr]
  split
  · rename_i h; exact Or.inr ⟨h.1, rfl⟩
  · exact Or.inl rfl

theorem stealCh_valid (w : W) (c : Nat) (more : Bool) (ch : Slab.Ch) (hv : 2 ≤ ch.op → Valid cfg.slab.nc ch.k) :
    2 ≤ (w.stealCh c more ch).op → Valid cfg.slab.nc (w.stealCh c more ch).k := by
  unfold W.stealCh
  split
  · split
    · exact hv
    · intro h; simp at h
  · exact hv

theorem steal_work_K {w : W} (k : K cfg limit w) {i dst b acq src : Nat} {out : List (Nat × List Nat)}
    (hi : w.th[i]? = some (.steal dst b acq (.work src) out))
    (hr : ∃ t : Slab.Thread, w.s.thr[i]? = some t ∧ t.cpu ≠ none) (ch : Ch) (hv : 2 ≤ ch.s.op → Valid cfg.slab.nc ch.s.k) :
    ∃ w' o, stepSteal cfg w i ch dst b acq (.work src) out = some (w', o) ∧ K cfg limit w' := by
  obtain ⟨hdst, ho, hsrc⟩ : dst < cfg.slab.n ∧ OutOK out ∧ src < cfg.slab.n := k.ok i _ hi
  cases out with
  | cons x out =>
    obtain ⟨w', e, hK⟩ := outs_K (st' := .steal dst b acq (.work src) out) k hi ho rfl rfl (fun kd h => h) rfl ⟨hdst, ho.tail, hsrc⟩ (fun h => h) (fun _ => ⟨rfl, rfl⟩) rfl
    exact ⟨_, _, by simp only [stepSteal, e, Option.map_some]; rfl, hK⟩
  | nil =>
    obtain ⟨t, c0, s', out, kd, ret, a, hfit, -⟩ := k.acts hi hr (w.stealCh src (decide (acq < b)) ch.s) (fun _ => stealCh_valid w src _ ch.s hv)
    have tau : out = .tau → (kd = .idle ∨ (St.steal dst b acq (.work src) []).fits cfg kd) →
        ∃ w' o, stepSteal cfg w i ch dst b acq (.work src) [] = some (w', o) ∧ K cfg limit w' := by
      intro e1 e2
      subst e1
      obtain ⟨h1, h2⟩ := a.eff
      simp only [stepSteal, W.act, a.step]
      by_cases e : kd = .idle
      · rw [if_pos ((idle_iff a.under).mpr e)]
        refine ⟨_, _, rfl, k.acted (st' := .steal dst b acq .pick []) hi a rfl rfl rfl rfl e (fun _ h => by cases h) ?_ ⟨hdst, ho, rfl⟩ (fun h => h) (fun c h => bytes_same h1 h)
          (fun _ => ⟨rfl, rfl⟩) rfl⟩
        intro b; rw [h2]; rfl
      · rw [if_neg (fun h => e ((idle_iff a.under).mp h))]
        refine ⟨_, _, rfl, k.silent hi a (e2.resolve_left e) (fun c e => by cases e)⟩
    have haf := a.after
    rcases hfit with h | ⟨x, h⟩
    · rw [h] at haf
      obtain ⟨h1, h2⟩ := haf
      refine tau h1 ?_
      rcases h2 with ⟨h2, h3⟩ | ⟨h2, h3 | h3⟩
      · right
        rcases stealCh_kind w src (decide (acq < b)) ch.s (ready_iff.mpr h2) with e | ⟨e, e'⟩
        · rw [e] at h3; exact Or.inl h3
        · rw [e, e'] at h3; exact Or.inr ⟨_, h3⟩
      · exact Or.inr (Or.inl h3)
      · exact Or.inl h3
    · rw [h] at haf
      rcases haf with ⟨h1, h2⟩ | ⟨l, hl, h1, h2⟩ | ⟨n, hn, h1, h2⟩
      · exact tau h1 (Or.inr (Or.inr ⟨x, h2⟩))
      · subst h1
        obtain ⟨⟨hcn, hv⟩, e2, e3, -, e5⟩ := a.eff
        simp only [stepSteal, W.act, a.step]
        rw [if_neg (by omega)]
        refine ⟨_, _, rfl, k.acted (st' := .steal dst b acq (.work src) _) hi a rfl rfl rfl rfl (Or.inr ⟨x, h2⟩) (fun _ h => by cases h) ?_ ⟨hdst, small_out hl x, hsrc⟩
          (fun h => h) (fun c h => bytes_keep e2 e5.symm h) (fun _ => ⟨rfl, rfl⟩) rfl⟩
        intro b
        show s'.held.count b + _ + 0 = _ + w.user.count b + List.count b (List.flatMap _ _)
        rw [small_hand, e3, List.count_append]
        simp only [pairs]; omega
      · subst h1
        obtain ⟨⟨hcn, hv⟩, e2, e3, -, e5, -⟩ := a.eff
        obtain ⟨hb1, hb2⟩ := bytes_but e2 hv hcn
        rw [e5, Nat.mul_add] at hb2
        simp only [stepSteal, W.act, a.step]
        by_cases en : n = 0
        · subst en
          rw [if_pos rfl]
          refine ⟨_, _, rfl, k.next (w' := { w with s := s' }) (st' := .steal dst b acq (.work src) []) hi (set_same hi).symm a.under (Or.inl h2) (fun _ h => by cases h) ?_ a.used ⟨hdst, ho, hsrc⟩ (fun _ => Or.inl rfl) ?_ rfl⟩
          · intro b
            show s'.held.count b + _ + 0 = _ + w.user.count b + 0
            rw [e3]
          · intro c' h
            have : bytes cfg s' c' = bytes cfg w.s c' := bytes_keep e2 e5.symm h
            show w.avail c' + bytes cfg s' c' + 0 + w.cap c' + 0 = w.avail c' + bytes cfg w.s c' + 0 + w.cap c' + 0
            rw [this]
        · have hn1 : n = 1 := by omega
          subst hn1
          rw [if_neg (by decide)]
          refine ⟨_, _, rfl, k.next (st' := .steal dst b acq (.pend src (cfg.size x) true) []) hi rfl a.under h2 (fun _ h => by cases h) ?_ a.used ⟨hdst, ho, hsrc, rfl⟩ (fun _ => Or.inl rfl) ?_ rfl⟩
          · intro b
            show s'.held.count b + _ + 0 = _ + w.user.count b + 0
            rw [e3]
          · intro c' h
            show w.avail c' + bytes cfg s' c' + (if src = c' then cfg.size x else 0) + w.cap c' + 0 =
              w.avail c' + bytes cfg w.s c' + 0 + w.cap c' + 0
            by_cases e : src = c'
            · subst e; rw [if_pos rfl]; omega
            · rw [if_neg e, hb1 c' h (fun a => e a.symm)]

theorem steal_pick_K {w : W} (hcfg : cfg.OK limit) (k : K cfg limit w) {i dst b acq : Nat} {out : List (Nat × List Nat)}
    (hi : w.th[i]? = some (.steal dst b acq .pick out)) (ch : Ch) :
    ∃ w' o, stepSteal cfg w i ch dst b acq .pick out = some (w', o) ∧ K cfg limit w' := by
  obtain ⟨hdst, ho, rfl⟩ : dst < cfg.slab.n ∧ OutOK out ∧ out = [] := k.ok i _ hi
  simp only [stepSteal]
  by_cases e0 : ch.s.op = 0
  · rw [if_pos e0]
    by_cases ea : acq = 0
    · rw [if_pos ea]
      subst ea
      exact ⟨_, _, rfl, k.local (st' := .idle) hi (fun _ h => h) (fun _ h => by cases h) (.refl _) trivial (fun h => by cases h) (fun _ => ⟨rfl, rfl⟩) rfl⟩
    · rw [if_neg ea]
      have hlt : w.avail dst + acq < 2 ^ 64 := by
        have h1 := k.bud dst hdst
        have h2 := k.owed_zero hi rfl (c := dst) rfl
        have h3 := k.sum
        have h4 := le_total w.cap hdst
        have h5 : acq ≤ w.moving := le_sum (fun st => st.moving) hi
        have h6 := hcfg.fits
        omega
      refine ⟨_, _, by simp only [W.addAvail, if_pos hlt, Option.map_some]; rfl, ?_⟩
      refine k.stay (st' := .steal dst b acq .last []) hi rfl rfl (fun _ h => h) (fun _ h => by cases h) (fun _ => rfl) ⟨hdst, ho, rfl⟩ (fun _ => Or.inl rfl) ?_ rfl
      intro c' _
      show upd w.avail dst (w.avail dst + acq) c' + 0 + w.cap c' + 0 = w.avail c' + 0 + w.cap c' + (if dst = c' then acq else 0)
      unfold upd
      by_cases e : c' = dst
      · subst e; rw [if_pos rfl, if_pos rfl]; omega
      · rw [if_neg e, if_neg (fun a => e a.symm)]
  · rw [if_neg e0]
    split
    · rename_i h
      refine ⟨_, _, rfl, ?_⟩
      generalize hg : subtractAtLeast (w.avail ch.s.k) 0 (b - acq) = g
      have hle : g ≤ w.avail ch.s.k := by subst hg; unfold subtractAtLeast; split <;> omega
      by_cases eg : g = 0
      · simp only [eg, ne_eq, not_true_eq_false, if_false]
        refine k.stay (st' := .steal dst b acq (.lock ch.s.k) []) hi rfl rfl (fun _ h => h) (fun _ h => by cases h) (fun _ => rfl) ⟨hdst, ho, h.2.1, rfl⟩ (fun _ => Or.inl rfl) ?_ rfl
        intro c' _
        show upd w.avail ch.s.k (w.avail ch.s.k - 0) c' + 0 + w.cap c' + 0 = w.avail c' + 0 + w.cap c' + 0
        unfold upd
        by_cases e : c' = ch.s.k
        · subst e; rw [if_pos rfl]; omega
        · rw [if_neg e]
      · simp only [ne_eq, eg, not_false_eq_true, if_true]
        refine k.stay (st' := .steal dst b acq (.pend ch.s.k g false) []) hi rfl rfl (fun _ h => h) (fun _ h => by cases h) (fun _ => rfl) ⟨hdst, ho, h.2.1, rfl⟩ (fun _ => Or.inl rfl) ?_ rfl
        intro c' _
        show upd w.avail ch.s.k (w.avail ch.s.k - g) c' + (if ch.s.k = c' then g else 0) + w.cap c' + 0 = w.avail c' + 0 + w.cap c' + 0
        unfold upd
        by_cases e : c' = ch.s.k
        · subst e; rw [if_pos rfl, if_pos rfl]; omega
        · rw [if_neg e, if_neg (fun a => e a.symm)]
    · exact ⟨_, _, rfl, k⟩

theorem steal_pend_K {w : W} (k : K cfg limit w) {i dst b acq src g : Nat} {lk : Bool} {out : List (Nat × List Nat)}
    (hi : w.th[i]? = some (.steal dst b acq (.pend src g lk) out)) (ch : Ch) :
    ∃ w' o, stepSteal cfg w i ch dst b acq (.pend src g lk) out = some (w', o) ∧ K cfg limit w' := by
  obtain ⟨hdst, ho, hsrc, rfl⟩ : dst < cfg.slab.n ∧ OutOK out ∧ src < cfg.slab.n ∧ out = [] := k.ok i _ hi
  have hge : g ≤ w.cap src := by
    have h1 := k.bud src hsrc
    have h2 := k.owed_zero hi rfl (c := src) rfl
    have h3 := k.purse_le hi src
    have h4 : (St.steal dst b acq (.pend src g lk) []).purse src = g := by simp [St.purse]
    omega
  simp only [stepSteal]
  rw [if_neg (by omega)]
  have htot := total_upd w.cap (w.cap src - g) hsrc
  have hb : ∀ c', w.avail c' + 0 + w.cap c' + 0 = w.avail c' + (if src = c' then g else 0) + upd w.cap src (w.cap src - g) c' + 0 := by
    intro c'
    unfold upd
    by_cases e : c' = src
    · subst e; rw [if_pos rfl, if_pos rfl]; omega
    · rw [if_neg e, if_neg (fun a => e a.symm)]
  have hs : total cfg.slab.n (upd w.cap src (w.cap src - g)) + (acq + g) = total cfg.slab.n w.cap + acq := by
    have := le_total w.cap hsrc
    omega
  refine ⟨_, _, rfl, ?_⟩
  cases lk
  · simp only [Bool.false_eq_true, if_false]
    by_cases e : b ≤ acq + g
    · rw [if_pos e]
      exact k.stay (st' := .steal dst b (acq + g) .pick []) hi rfl rfl (fun _ h => h) (fun _ h => by cases h) (fun _ => rfl) ⟨hdst, ho, rfl⟩ (fun _ => Or.inl rfl) (fun c _ => hb c) hs
    · rw [if_neg e]
      exact k.stay (st' := .steal dst b (acq + g) (.lock src) []) hi rfl rfl (fun _ h => h) (fun _ h => by cases h) (fun _ => rfl) ⟨hdst, ho, hsrc, rfl⟩ (fun _ => Or.inl rfl) (fun c _ => hb c) hs
  · simp only [if_true]
    exact k.stay (st' := .steal dst b (acq + g) (.work src) []) hi rfl rfl (fun _ h => Or.inl h) (fun _ h => by cases h) (fun _ => rfl) ⟨hdst, ho, hsrc⟩ (fun _ => Or.inl rfl) (fun c _ => hb c) hs

theorem steal_lock_K {w : W} (k : K cfg limit w) {i dst b acq src : Nat} {out : List (Nat × List Nat)}
    (hi : w.th[i]? = some (.steal dst b acq (.lock src) out))
    (hr : ∃ t : Slab.Thread, w.s.thr[i]? = some t ∧ t.cpu ≠ none) (ch : Ch) :
    ∃ w' o, stepSteal cfg w i ch dst b acq (.lock src) out = some (w', o) ∧ K cfg limit w' := by
  obtain ⟨hdst, ho, hsrc, rfl⟩ : dst < cfg.slab.n ∧ OutOK out ∧ src < cfg.slab.n ∧ out = [] := k.ok i _ hi
  simp only [stepSteal]
  split
  · rename_i hl
    exact lock_K k hi hr (fun _ h => h) hsrc hl (Or.inl rfl) rfl rfl ⟨hdst, ho, hsrc⟩ (fun h => h) (fun _ => ⟨rfl, rfl⟩) rfl
  · exact ⟨_, _, rfl, k⟩

theorem steal_last_K {w : W} (hcfg : cfg.OK limit) (k : K cfg limit w) {i dst b acq : Nat} {out : List (Nat × List Nat)}
    (hi : w.th[i]? = some (.steal dst b acq .last out)) (ch : Ch) :
    ∃ w' o, stepSteal cfg w i ch dst b acq .last out = some (w', o) ∧ K cfg limit w' := by
  obtain ⟨hdst, ho, rfl⟩ : dst < cfg.slab.n ∧ OutOK out ∧ out = [] := k.ok i _ hi
  have hlt : w.cap dst + acq < 2 ^ 64 := by
    have h3 := k.sum
    have h4 := le_total w.cap hdst
    have h5 : acq ≤ w.moving := le_sum (fun st => st.moving) hi
    have h6 := hcfg.fits
    omega
  refine ⟨_, _, by simp only [stepSteal, if_pos hlt]; rfl, ?_⟩
  have htot := total_upd w.cap (w.cap dst + acq) hdst
  refine k.stay (st' := .idle) hi rfl rfl (fun _ h => h) (fun _ h => by cases h) (fun _ => rfl) trivial (fun h => by cases h) ?_ ?_
  · intro c' _
    show w.avail c' + 0 + w.cap c' + (if dst = c' then acq else 0) = w.avail c' + 0 + upd w.cap dst (w.cap dst + acq) c' + 0
    unfold upd
    by_cases e : c' = dst
    · subst e; rw [if_pos rfl, if_pos rfl]; omega
    · rw [if_neg e, if_neg (fun a => e a.symm)]
  · show total cfg.slab.n (upd w.cap dst (w.cap dst + acq)) + 0 = total cfg.slab.n w.cap + acq
    omega

/-! ### Operations on all CPUs -/

theorem all_K {w : W} (hcfg : cfg.OK limit) (k : K cfg limit w) {i : Nat} {out : List (Nat × List Nat)}
    (hi : w.th[i]? = some (.all out)) (hr : ∃ t : Slab.Thread, w.s.thr[i]? = some t ∧ t.cpu ≠ none) (ch : Ch)
    (hck : out = [] → checkRelease cfg w ch.s = true) :
    ∃ w' o, stepAll cfg w i ch out = some (w', o) ∧ K cfg limit w' := by
  have ho : OutOK out := k.ok i _ hi
  cases out with
  | cons x out =>
    obtain ⟨w', e, hK⟩ := outs_K (st' := .all out) k hi ho rfl rfl (fun kd h => h) rfl ho.tail (fun h => by cases h) (fun _ => ⟨rfl, rfl⟩) rfl
    exact ⟨_, _, by simp only [stepAll, e, Option.map_some]; rfl, hK⟩
  | nil =>
    obtain ⟨t, c0, s', out, kd, ret, a, hfit, -⟩ := k.acts hi hr ch.s (fun h => by cases h)
    have haf := a.after
    rw [show w.s.kind t.pc = .all from hfit] at haf
    simp only [stepAll]
    rw [if_pos (hck rfl)]
    rcases haf with ⟨rfl, h2⟩ | ⟨c, x, l, cap, rfl, h2⟩
    · obtain ⟨h1, h3⟩ := a.eff
      simp only [W.act, a.step]
      by_cases e : kd = .idle
      · rw [if_pos ((idle_iff a.under).mpr e)]
        refine ⟨_, _, rfl, k.acted (st' := .idle) hi a rfl rfl rfl rfl e (fun _ h => by cases h) ?_ trivial (fun h => by cases h) (fun c h => bytes_same h1 h)
          (fun _ => ⟨rfl, rfl⟩) rfl⟩
        intro b; rw [h3]; rfl
      · rw [if_neg (fun h => e ((idle_iff a.under).mp h))]
        exact ⟨_, _, rfl, k.silent hi a (h2.resolve_right e) (fun c e => by cases e)⟩
    · obtain ⟨w1, out, e, hK⟩ := handle_K hcfg k hi a rfl (fun out => .all out) (fun _ => rfl) (fun _ => h2)
        (fun _ => rfl) (fun out ho => ho) (fun _ => rfl) (fun _ _ => ⟨rfl, rfl⟩) (fun _ => rfl)
      exact ⟨_, _, by simp only [W.act, a.step, e, Option.map_some]; rfl, hK⟩

end Verif.CpuCache
