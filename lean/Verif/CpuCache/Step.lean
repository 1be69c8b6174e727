import Verif.CpuCache.Remote
/-! Every event preserves the invariant. -/
namespace Verif.CpuCache
open Slab (Valid GoodObj Kind Sub Under Same SameBut Effect After)

variable {cfg : Cfg} {limit : Nat}

/-- Calls of an idle thread. -/
theorem call_K {w w0 : W} (k : K cfg limit w) {i : Nat} {st' : St} {op : Slab.Op} (hi : w.th[i]? = some .idle)
    (hr : ∃ t : Slab.Thread, w.s.thr[i]? = some t ∧ t.cpu ≠ none)
    (hp : (∃ t : Slab.Thread, w.s.thr[i]? = some t ∧ t.pc = .idle ∧ t.cpu ≠ none) → Slab.Pre cfg.slab w.s (.call i op)) (hop : op ≠ .cache)
    (h0s : w0.s = w.s) (h0t : w0.th = w.th) (h0a : w0.avail = w.avail) (h0c : w0.cap = w.cap)
    (hf : st'.fits cfg op.kind) (hc : st'.cpu = none)
    (hh : ∀ a, (op.rest w.s.held).count a + w.user.count a = w.s.held.count a + w0.user.count a + st'.hand.count a)
    (hok : st'.OK cfg) (hone : st'.isSteal = false)
    (hb : ∀ c, st'.purse c = 0 ∧ st'.owed c = 0) (hsum : st'.moving = 0) :
    ∃ w' out, w0.start cfg i op st' = some (w', out) ∧ K cfg limit w' := by
  obtain ⟨t, hrun, hfit, -⟩ := k.run hi hr
  refine k.start hi hr (hp ⟨t, hrun.thr, call_pre k hrun hfit, hrun.cpu⟩) hop h0s h0t hf (fun _ h => by rw [hc] at h; cases h) hh hok
    (fun h => by rw [hone] at h; cases h) ?_ (by rw [h0c, hsum]; rfl)
  intro c _
  rw [h0a, h0c, (hb c).1, (hb c).2]; rfl

theorem stepTh_K {w : W} (hcfg : cfg.OK limit) (k : K cfg limit w) {i : Nat} {st : St} (hi : w.th[i]? = some st)
    (hr : ∃ t : Slab.Thread, w.s.thr[i]? = some t ∧ t.cpu ≠ none) (ch : Ch) (hv : st.isAll = false → 2 ≤ ch.s.op → Valid cfg.slab.nc ch.s.k)
    (hck : st = .all [] → checkRelease cfg w ch.s = true) :
    ∃ w' out, stepTh cfg w i ch st = some (w', out) ∧ K cfg limit w' := by
  cases st with
  | idle => exact ⟨_, _, rfl, k⟩
  | pop => exact pop_K k hi hr ch (hv rfl)
  | push => exact push_K k hi hr ch (hv rfl)
  | slow => exact slow_K k hi hr ch
  | caching => exact caching_K k hi hr ch (hv rfl)
  | retry => exact retry_K k hi hr ch
  | direct => exact ⟨_, _, rfl, k⟩
  | sendOne => exact sendOne_K k hi ch
  | upd => exact upd_K k hi ch
  | grow => exact grow_K k hi hr ch
  | growing => exact growing_K k hi hr ch (hv rfl)
  | grown => exact grown_K hcfg k hi ch
  | target => exact target_K k hi ch
  | fetch => exact fetch_K k hi ch
  | store => exact store_K k hi hr ch
  | storing => exact storing_K k hi hr ch (hv rfl)
  | back => exact back_K k hi ch
  | done => exact done_K k hi ch
  | gather => exact gather_K k hi hr ch
  | gathering => exact gathering_K k hi hr ch (hv rfl)
  | flush => exact flush_K k hi ch
  | fdone => exact fdone_K k hi ch
  | drain0 => exact drain0_K k hi hr ch
  | drain => exact drain_K hcfg k hi hr ch (hv rfl)
  | classes0 => exact classes0_K k hi hr ch
  | classes => exact classes_K k hi hr ch (hv rfl)
  | classes1 => exact classes1_K hcfg k hi ch
  | steal dst bytes acq ph out =>
    cases ph with
    | pick => exact steal_pick_K hcfg k hi ch
    | pend => exact steal_pend_K k hi ch
    | lock => exact steal_lock_K k hi hr ch
    | work => exact steal_work_K k hi hr ch (hv rfl)
    | last => exact steal_last_K hcfg k hi ch
  | all out => exact all_K hcfg k hi hr ch (fun e => hck (by rw [e]))

/-- The scheduler. -/
theorem sched_K {w : W} (k : K cfg limit w) {e : Slab.Ev}
    (he : (∃ i, e = .schedOut i) ∨ (∃ i c, e = .schedIn i c) ∨ ∃ i, e = .signal i) (hp : Slab.Pre cfg.slab w.s e) :
    ∃ w' out, w.sched cfg e = some (w', out) ∧ K cfg limit w' := by
  obtain ⟨s', e1, hr, hsame, hheld, hev, hthr⟩ := Slab.sched_under k.slab he hp
  refine ⟨{ w with s := s' }, .tau, by simp only [W.sched, e1, Option.map_some], ?_⟩
  refine ⟨hr, ?_, ?_, fun x hx => k.used x (hev.mem_iff.mp hx), k.ok, k.one, ?_, k.sum⟩
  · intro i st hi
    obtain ⟨t, h1, h2, h3⟩ := k.fit i st hi
    obtain ⟨t', h4, h5, h6⟩ := hthr i t h1
    exact ⟨t', h4, by rw [h5]; exact h2, fun c h => by rw [h6]; exact h3 c h⟩
  · intro a
    show s'.held.count a = _
    rw [hheld]; exact k.held a
  · intro c hc
    show w.avail c + bytes cfg s' c + _ = _
    rw [bytes_same hsame hc]; exact k.bud c hc

/-- Every event. -/
theorem step_K {w : W} (hcfg : cfg.OK limit) (k : K cfg limit w) (e : Ev) (hp : Pre cfg w e) (hck : CheckOK cfg w e) :
    ∃ w' out, step cfg w e = some (w', out) ∧ K cfg limit w' := by
  cases e with
  | malloc i x =>
    obtain ⟨hi, hu, hr⟩ := hp
    exact call_K k hi hr (fun ⟨t, h1, h2, h3⟩ => ⟨t, h1, h2, h3, hu.1⟩) (fun h => by cases h) rfl rfl rfl rfl rfl rfl (fun _ => rfl) hu rfl (fun _ => ⟨rfl, rfl⟩) rfl
  | free i x o =>
    obtain ⟨hi, hm, hr⟩ := hp
    have hm' : (x, o) ∈ w.s.held := by
      have := k.held (x, o)
      have := List.count_pos_iff.mpr hm
      exact List.count_pos_iff.mp (by omega)
    obtain ⟨hu, hg⟩ := k.hand_used hm'
    refine call_K k hi hr (fun ⟨t, h1, h2, h3⟩ => ⟨t, h1, h2, h3, hu.1, hg, hm'⟩) (fun h => by cases h) rfl rfl rfl rfl rfl rfl ?_ hu rfl (fun _ => ⟨rfl, rfl⟩) rfl
    intro a
    show (w.s.held.erase (x, o)).count a + _ = _ + (w.user.erase (x, o)).count a + 0
    have h1 := List.count_pos_iff.mpr hm
    have h2 := List.count_pos_iff.mpr hm'
    rw [List.count_erase, List.count_erase]
    by_cases e : (x, o) = a
    · subst e; simp; omega
    · simp only [beq_iff_eq, if_neg e]; omega
  | uncache i =>
    obtain ⟨hi, hr⟩ := hp
    exact call_K k hi hr (fun ⟨t, h1, h2, h3⟩ => ⟨t, h1, h2, h3, trivial⟩) (fun h => by cases h) rfl rfl rfl rfl rfl rfl (fun _ => rfl) trivial rfl (fun _ => ⟨rfl, rfl⟩) rfl
  | drain i c =>
    obtain ⟨hi, hc⟩ := hp
    exact ⟨_, _, rfl, k.local (st' := .drain0 c) hi (fun _ h => h) (fun _ h => by cases h) (.refl _) hc (fun h => by cases h) (fun _ => ⟨rfl, rfl⟩) rfl⟩
  | classes i c =>
    obtain ⟨hi, hc⟩ := hp
    refine ⟨_, _, rfl, k.stay (st' := .classes0 c (w.avail c)) hi rfl rfl (fun _ h => h) (fun _ h => by cases h) (fun _ => rfl) hc (fun h => by cases h) ?_ rfl⟩
    intro c' _
    show upd w.avail c 0 c' + (if c = c' then w.avail c else 0) + w.cap c' + 0 = w.avail c' + 0 + w.cap c' + 0
    unfold upd
    by_cases e : c' = c
    · subst e; rw [if_pos rfl, if_pos rfl]; omega
    · rw [if_neg e, if_neg (fun a => e a.symm)]
  | steal i dst b =>
    obtain ⟨hi, hc, hone⟩ := hp
    exact ⟨_, _, rfl, k.stay (st' := .steal dst b 0 .pick []) hi rfl rfl (fun _ h => h) (fun _ h => by cases h) (fun _ => rfl) ⟨hc, (fun x hx => nomatch hx), rfl⟩
      (fun _ => Or.inr hone) (fun _ _ => rfl) rfl⟩
  | resize i nb ncaps lim =>
    obtain ⟨hi, hp⟩ := hp
    have hr : ∃ t : Slab.Thread, w.s.thr[i]? = some t ∧ t.cpu ≠ none := by
      obtain ⟨t, h1, h2, h3, -⟩ := hp; exact ⟨t, h1, h3⟩
    exact call_K k hi hr (fun _ => hp) (fun h => by cases h) rfl rfl rfl rfl rfl rfl (fun _ => rfl) (fun x hx => by cases hx) rfl (fun _ => ⟨rfl, rfl⟩) rfl
  | release i =>
    obtain ⟨hi, hp⟩ := hp
    have hr : ∃ t : Slab.Thread, w.s.thr[i]? = some t ∧ t.cpu ≠ none := by
      obtain ⟨t, h1, h2, h3, -⟩ := hp; exact ⟨t, h1, h3⟩
    exact call_K k hi hr (fun _ => hp) (fun h => by cases h) rfl rfl rfl rfl rfl rfl (fun _ => rfl) (fun x hx => by cases hx) rfl (fun _ => ⟨rfl, rfl⟩) rfl
  | act i ch =>
    obtain ⟨hr, st, hi, hv⟩ := hp
    simp only [step, hi]
    exact stepTh_K hcfg k hi hr ch (fun h => (hv h).1) (fun e => hck (by rw [hi, e]))
  | fetched i l =>
    obtain ⟨hg, ⟨x, hi, hl⟩ | ⟨r, hi, hl⟩⟩ := hp
    · exact ⟨_, _, by simp only [step, hi]; rfl, fetched_direct_K k hi hl hg⟩
    · exact ⟨_, _, by simp only [step, hi]; rfl, fetched_K k hi hl hg⟩
  | schedOut i => exact sched_K k (Or.inl ⟨i, rfl⟩) hp
  | schedIn i c => exact sched_K k (Or.inr (Or.inl ⟨i, c, rfl⟩)) hp
  | signal i => exact sched_K k (Or.inr (Or.inr ⟨i, rfl⟩)) hp

/-- If the step is defined the check passed. -/
theorem check_of_step {w w' : W} {e : Ev} {out : Out} (h : step cfg w e = some (w', out)) : CheckOK cfg w e := by
  cases e with
  | act i ch =>
    intro hi
    simp only [step, hi, stepTh, stepAll] at h
    split at h
    · rename_i h'; exact h'
    · cases h
  | _ => trivial

theorem init_K {m : Slab.Mem} {b : Nat} {caps : Nat → Nat} {lim threads : Nat} {w : W} (f : Slab.Fits cfg.slab.nc caps lim)
    (h : W.init cfg m b caps lim threads limit = some w) : K cfg limit w := by
  unfold W.init at h
  cases hs : Slab.W.init cfg.slab m b caps lim threads with
  | none => rw [hs] at h; cases h
  | some s =>
    rw [hs] at h
    injection h with h
    subst h
    have hev := Slab.init_everything f hs
    have hr := Slab.Reach.init f hs
    unfold Slab.W.init at hs
    split at hs
    · injection hs with hs
      have hth : ∀ (i : Nat) (st : St), (List.replicate threads St.idle)[i]? = some st → st = .idle ∧ i < threads := by
        intro i st h
        rw [List.getElem?_replicate] at h
        split at h
        · rename_i h'; injection h with h; exact ⟨h.symm, h'⟩
        · cases h
      have hsum : ∀ f : St → Nat, f .idle = 0 → ((List.replicate threads St.idle).map f).sum = 0 := by
        intro f hf; simp [hf]
      refine ⟨hr, ?_, ?_, ?_, ?_, ?_, ?_, ?_⟩
      · intro i st hi
        obtain ⟨rfl, hlt⟩ := hth i st hi
        refine ⟨⟨none, .none, 0, 0, .idle⟩, by rw [← hs]; simp [hlt], rfl, fun c h => by cases h⟩
      · intro a
        have : (List.replicate threads St.idle).flatMap St.hand = [] := by
          rw [List.flatMap_eq_nil_iff]
          intro x hx
          rw [List.mem_replicate] at hx
          rw [hx.2]; rfl
        show s.held.count a = _ + ((List.replicate threads St.idle).flatMap St.hand).count a
        rw [this, ← hs]; rfl
      · intro x hx
        rw [hev] at hx; cases hx
      · intro i st hi
        obtain ⟨rfl, -⟩ := hth i st hi
        trivial
      · intro i j st st' hi hj h1
        obtain ⟨rfl, -⟩ := hth i st hi
        cases h1
      · intro c hc
        show limit + bytes cfg s c + ((List.replicate threads St.idle).map _).sum = limit + ((List.replicate threads St.idle).map _).sum
        rw [hsum _ rfl, hsum _ rfl]
        have : bytes cfg s c = 0 := by
          unfold bytes
          rw [List.sum_eq_zero_iff_forall_eq_nat]
          intro y hy
          rw [List.mem_map] at hy
          obtain ⟨x, -, rfl⟩ := hy
          have : s.space c (x + 1) = 0 := by rw [← hs]; rfl
          rw [this, Nat.mul_zero]
        omega
      · show total cfg.slab.n (fun _ => limit) + ((List.replicate threads St.idle).map _).sum = _
        rw [hsum _ rfl]
        unfold total
        rw [List.map_const', List.sum_replicate_nat, List.length_range]
        rfl
    · cases hs

theorem Reach.K {w : W} (hcfg : cfg.OK limit) (h : Reach cfg limit w) : K cfg limit w := by
  induction h with
  | init f h => exact init_K f h
  | step r hp h ih =>
    obtain ⟨w1, o, e, hK⟩ := step_K hcfg ih _ hp (check_of_step h)
    rw [h] at e; injection e with e; injection e with e1 e2
    rw [e1]; exact hK

end Verif.CpuCache
