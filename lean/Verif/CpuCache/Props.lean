import Verif.CpuCache.Conserve
/-! The properties of the per-CPU caches: C28, C29, C45. -/
namespace Verif.CpuCache
open Slab (Valid GoodObj Kind Sub Under Same SameBut Effect After)

variable {cfg : Cfg} {limit : Nat}

/-! ### C28: the budget -/

/-- **C28.** In every state every event the environment may cause is defined: no budget counter wraps around, no check
fails, no index is out of bounds.  The exception is the check of C45. -/
theorem step_defined (hcfg : cfg.OK limit) (w : W) (h : Reach cfg limit w) (e : Ev) (hp : Pre cfg w e) (hck : CheckOK cfg w e) :
    ∃ w' out, step cfg w e = some (w', out) := by
  obtain ⟨w', out, e1, -⟩ := step_K hcfg (h.K hcfg) e hp hck
  exact ⟨w', out, e1⟩

/-- **C28.** For every CPU and at every moment: the unallocated bytes, the bytes given to the classes and the bytes
threads have in hand are together the CPU's budget (plus what a steal has already put into `available` and is about to
add to the budget). -/
theorem budget_exact (hcfg : cfg.OK limit) (w : W) (h : Reach cfg limit w) (c : Nat) (hc : c < cfg.slab.n) :
    w.avail c + bytes cfg w.s c + w.purse c = w.cap c + w.owed c := (h.K hcfg).bud c hc

/-- **C28.** The budgets of the CPUs and the bytes a steal has on the way are together `limit` times the number of CPUs. -/
theorem budgets_conserved (hcfg : cfg.OK limit) (w : W) (h : Reach cfg limit w) :
    total cfg.slab.n w.cap + w.moving = cfg.slab.n * limit := (h.K hcfg).sum

/-- **C28.** At quiescence the unallocated bytes and the bytes given to the classes are exactly the CPU's budget, and
the budgets add up to `limit` times the number of CPUs. -/
theorem budget_at_rest (hcfg : cfg.OK limit) (w : W) (h : Reach cfg limit w) (hq : ∀ st ∈ w.th, st = .idle) :
    (∀ c, c < cfg.slab.n → w.avail c + bytes cfg w.s c = w.cap c) ∧ total cfg.slab.n w.cap = cfg.slab.n * limit := by
  have zero : ∀ f : St → Nat, f .idle = 0 → (w.th.map f).sum = 0 := by
    intro f hf
    rw [List.sum_eq_zero_iff_forall_eq_nat]
    intro x hx
    rw [List.mem_map] at hx
    obtain ⟨st, hst, rfl⟩ := hx
    rw [hq st hst, hf]
  constructor
  · intro c hc
    have h1 := budget_exact hcfg w h c hc
    have h2 : w.purse c = 0 := zero _ rfl
    have h3 : w.owed c = 0 := zero _ rfl
    omega
  · have h1 := budgets_conserved hcfg w h
    have h2 : w.moving = 0 := zero _ rfl
    omega

theorem total_le {n : Nat} {f g : Nat → Nat} (h : ∀ c, c < n → f c ≤ g c) : total n f ≤ total n g := by
  unfold total
  exact sum_le fun x hx => h x (List.mem_range.mp hx)

theorem total_add (n : Nat) (f g : Nat → Nat) : total n (fun c => f c + g c) = total n f + total n g := by
  unfold total
  generalize List.range n = l
  induction l with
  | nil => rfl
  | cons a l ih => simp only [List.map_cons, List.sum_cons, ih]; omega

theorem total_zero (n : Nat) {f : Nat → Nat} (h : ∀ c, c < n → f c = 0) : total n f = 0 := by
  unfold total
  rw [List.sum_eq_zero_iff_forall_eq_nat]
  intro x hx
  rw [List.mem_map] at hx
  obtain ⟨c, hc, rfl⟩ := hx
  exact h c (List.mem_range.mp hc)

theorem total_owed (n : Nat) (st : St) : total n (fun c => st.owed c) ≤ st.moving := by
  by_cases hs : ∃ dst b acq out, st = .steal dst b acq .last out
  · obtain ⟨dst, b, acq, out, rfl⟩ := hs
    show total n (fun c => if dst = c then acq else 0) ≤ acq
    by_cases hd : dst < n
    · have := total_upd (n := n) (c := dst) (fun _ => 0) acq hd
      rw [total_zero n (f := fun _ => 0) (fun _ _ => rfl)] at this
      have e : (fun c => if dst = c then acq else 0) = upd (fun _ => 0) dst acq := by
        funext c; unfold upd
        by_cases e : dst = c
        · rw [if_pos e, if_pos e.symm]
        · rw [if_neg e, if_neg (fun a => e a.symm)]
      rw [e]; omega
    · rw [total_zero]
      · exact Nat.zero_le _
      · intro c hc; rw [if_neg (by omega)]
  · rw [total_zero]
    · exact Nat.zero_le _
    · intro c _
      unfold St.owed
      split
      · rename_i dst b acq out; exact absurd ⟨dst, b, acq, out, rfl⟩ hs
      · rfl

theorem total_owed_le (n : Nat) (w : W) : total n (fun c => w.owed c) ≤ w.moving := by
  unfold W.owed W.moving
  generalize w.th = l
  induction l with
  | nil =>
    have : total n (fun c => (List.map (fun st => St.owed c st) []).sum) = 0 := total_zero n (fun _ _ => rfl)
    rw [this]; exact Nat.zero_le _
  | cons a l ih =>
    have := total_owed n a
    have e : total n (fun c => (List.map (fun st => St.owed c st) (a :: l)).sum) =
        total n (fun c => a.owed c) + total n (fun c => (List.map (fun st => St.owed c st) l).sum) := by
      rw [← total_add]; rfl
    rw [e]
    simp only [List.map_cons, List.sum_cons]
    omega

/-- What is cached of a class is within the capacity the class has been given. -/
theorem cell_le_space {s : Slab.W} (r : Slab.Reach cfg.slab s) {c k : Nat} (hk : Valid cfg.slab.nc k) :
    (s.cell c k).length ≤ s.space c k := by
  unfold Slab.W.cell Slab.W.space
  rw [List.length_append]
  have h1 := (Slab.bounded s r c k hk).1
  have h2 : (s.left c k).length ≤ s.leftCapacity c k := by
    cases ho : s.old c k with
    | none => rw [(Slab.left_none ho).1]; exact Nat.zero_le _
    | some x =>
      obtain ⟨ob, obeg⟩ := x
      obtain ⟨e1, e2⟩ := Slab.left_some ho
      rw [e1, e2, Slab.words_length]
      have : (s.mem.hdr ob c k).cur ≤ (s.mem.hdr ob c k).fin := by
        unfold Slab.W.old at ho
        split at ho
        · rename_i i rs e
          split at ho
          · rename_i p ep
            split at ho
            · rename_i hc
              exact (((r.K.rs i rs e).2.post p ep).2.pend ob obeg ho c k hc.1 hk hc.2).2.2
            · cases ho
          · cases ho
        · cases ho
      omega
  omega

/-- **C28.** The bytes cached for a CPU are within what its budget pays for. -/
theorem cached_le (hcfg : cfg.OK limit) (w : W) (h : Reach cfg limit w) (c : Nat) (hc : c < cfg.slab.n) :
    cachedBytes cfg w.s c + w.avail c + w.purse c ≤ w.cap c + w.owed c := by
  have h1 := budget_exact hcfg w h c hc
  have h2 : cachedBytes cfg w.s c ≤ bytes cfg w.s c := by
    apply sum_le
    intro k hk
    rw [List.mem_range] at hk
    exact Nat.mul_le_mul_left _ (cell_le_space (h.K hcfg).slab ⟨by omega, by omega⟩)
  omega

/-- **C28.** At every moment of every history all CPUs together cache at most `limit` times the number of CPUs bytes. -/
theorem cached_bounded (hcfg : cfg.OK limit) (w : W) (h : Reach cfg limit w) :
    total cfg.slab.n (cachedBytes cfg w.s) ≤ cfg.slab.n * limit := by
  have h1 := budgets_conserved hcfg w h
  have h2 : total cfg.slab.n (cachedBytes cfg w.s) ≤ total cfg.slab.n (fun c => w.cap c + w.owed c) :=
    total_le fun c hc => by have := cached_le hcfg w h c hc; omega
  have h3 := total_add cfg.slab.n w.cap (fun c => w.owed c)
  have h4 := total_owed_le cfg.slab.n w
  omega

/-! ### C29: batches -/

/-- **C29.** The batch target lies between one and one more than the number of objects the class may hold, and does
not exceed `2^min(successes, 10)` batches. -/
theorem target_bounds (capacity batch succ : Nat) (hb : 1 ≤ batch) :
    1 ≤ targetCount capacity batch succ ∧ targetCount capacity batch succ ≤ capacity + 1 ∧
    targetCount capacity batch succ ≤ 2 ^ min succ 10 * batch := by
  refine ⟨(targetCount_bounds hb).1, (targetCount_bounds hb).2, ?_⟩
  unfold targetCount
  split
  · have h1 : 0 < 2 ^ min succ 10 := Nat.two_pow_pos _
    exact Nat.mul_le_mul h1 hb
  · omega

/-- What a step that shows the end of an operation found. -/
theorem shows {w w' : W} {i : Nat} {ch : Ch} {st : St} {out : Out} (hs : stepTh cfg w i ch st = some (w', out)) :
    (∀ k o r, out = .allocated k o (some r) → st = .done r ∧ k = r.k ∧ o = r.res) ∧
    (∀ k o v, out = .freed k o (some v) → st = .fdone v ∧ k = v.k ∧ o = v.obj) := by
  cases st <;> simp only [stepTh, stepFast, stepGrow, stepRefill, stepOver, stepCpu, W.act, W.call, W.start, W.release, W.addAvail, W.handle] at hs
  case done r' =>
    injection hs with hs; injection hs with h1 h2
    subst h2
    refine ⟨?_, fun _ _ _ h => by cases h⟩
    intro k o r h
    injection h with h3 h4 h5
    injection h5 with h5
    subst h5
    exact ⟨rfl, h3.symm, h4.symm⟩
  case fdone v' =>
    injection hs with hs; injection hs with h1 h2
    subst h2
    refine ⟨(fun _ _ _ h => by cases h), ?_⟩
    intro k o r h
    injection h with h3 h4 h5
    injection h5 with h5
    subst h5
    exact ⟨rfl, h3.symm, h4.symm⟩
  case steal dst b acq ph out =>
    cases ph <;> cases out <;> simp only [stepSteal, W.act, W.call, W.start, W.release, W.addAvail] at hs
    all_goals (repeat' split at hs)
    all_goals refine ⟨fun _ _ _ h => ?_, fun _ _ _ h => ?_⟩
    all_goals simp_all
  case all out =>
    cases out <;> simp only [stepAll, W.act, W.release, W.handle, W.addAvail] at hs
    all_goals (repeat' split at hs)
    all_goals refine ⟨fun _ _ _ h => ?_, fun _ _ _ h => ?_⟩
    all_goals simp_all
  case drain c d b out =>
    cases out
    all_goals (repeat' split at hs)
    all_goals refine ⟨fun _ _ _ h => ?_, fun _ _ _ h => ?_⟩
    all_goals simp_all
  case classes c d out =>
    cases out
    all_goals (repeat' split at hs)
    all_goals refine ⟨fun _ _ _ h => ?_, fun _ _ _ h => ?_⟩
    all_goals simp_all
  case retry q c =>
    cases q
    all_goals (repeat' split at hs)
    all_goals refine ⟨fun _ _ _ h => ?_, fun _ _ _ h => ?_⟩
    all_goals simp_all
  all_goals (repeat' split at hs)
  all_goals refine ⟨fun _ _ _ h => ?_, fun _ _ _ h => ?_⟩
  all_goals simp_all

/-- **C29.** Allocation miss: when the allocation returns, the objects obtained from the layer below are exactly the
one returned, those left in the cache and those given back; they are at most as many as the target; and nothing is
returned only if the layer below gave nothing. -/
theorem refill_exact (hcfg : cfg.OK limit) (w w' : W) (h : Reach cfg limit w) (i : Nat) (ch : Ch) (k : Nat) (o : Option Nat) (r : Refill)
    (hs : step cfg w (.act i ch) = some (w', .allocated k o (some r))) :
    r.k = k ∧ r.fetched.Perm (o.toList ++ r.stored ++ r.back) ∧ r.fetched.length ≤ r.target ∧ (o = none → r.fetched = []) := by
  have hK := h.K hcfg
  simp only [step] at hs
  split at hs
  · rename_i st hi
    obtain ⟨rfl, rfl, rfl⟩ := (shows hs).1 k o r rfl
    have hok : r.OK cfg [] := hK.ok i _ hi
    refine ⟨rfl, ?_, by rw [← hok.tot]; exact hok.le, hok.res⟩
    have := hok.perm
    simpa using this
  · cases hs

/-- **C29.** Deallocation into a full class: when the deallocation returns, the freed object and the objects taken from
the cache are exactly those given to the layer below, and they are at most as many as the target. -/
theorem overflow_exact (hcfg : cfg.OK limit) (w w' : W) (h : Reach cfg limit w) (i : Nat) (ch : Ch) (k o : Nat) (v : Over)
    (hs : step cfg w (.act i ch) = some (w', .freed k o (some v))) :
    v.k = k ∧ v.obj = o ∧ (o :: v.popped).Perm v.sent ∧ v.sent.length ≤ v.target := by
  have hK := h.K hcfg
  simp only [step] at hs
  split at hs
  · rename_i st hi
    obtain ⟨rfl, rfl, rfl⟩ := (shows hs).2 k o v rfl
    obtain ⟨hok, hb⟩ : v.OK cfg ∧ v.batch = [] := hK.ok i _ hi
    have h1 := hok.perm
    have h2 := hok.le
    rw [hb, List.append_nil] at h1
    rw [hok.tot] at h2
    exact ⟨rfl, rfl, h1, by omega⟩
  · cases hs

/-- Objects that come from the layer below with an event. -/
def enters (w : W) : Ev → List (Nat × Nat)
  | .fetched i l =>
    match w.th[i]? with
    | some (.direct k) => pairs k l
    | some (.fetch r) => pairs r.k l
    | _ => []
  | _ => []

/-- **C29.** No object is lost or duplicated by any step of any operation, in any interleaving: the objects outside
the slabs, in the hands of threads and in the slabs are before and after the same, apart from those that come from
and go to the layer below. -/
theorem conserved (hcfg : cfg.OK limit) (w w' : W) (h : Reach cfg limit w) (e : Ev) (hp : Pre cfg w e) (out : Out)
    (hs : step cfg w e = some (w', out)) :
    (w'.s.everything cfg.slab ++ out.leaves).Perm (enters w e ++ w.s.everything cfg.slab) := by
  have hK := h.K hcfg
  rw [List.perm_iff_count]
  intro a
  rw [List.count_append, List.count_append]
  have go : ∀ {w0 : W} {i : Nat} {op : Slab.Op} {st : St}, w0.s = w.s → w0.start cfg i op st = some (w', out) → Slab.Pre cfg.slab w.s (.call i op) →
      (w'.s.everything cfg.slab).count a + out.leaves.count a = [].count a + (w.s.everything cfg.slab).count a := by
    intro w0 i op st h0 h1 h2
    unfold W.start W.call at h1
    split at h1
    · rename_i s o e
      injection h1 with h1; injection h1 with h3 h4
      subst h3 h4
      rw [h0] at e
      have : (s.everything cfg.slab).Perm (w.s.everything cfg.slab) := Slab.conserved _ _ hK.slab _ h2 _ e
      show (s.everything cfg.slab).count a + 0 = 0 + _
      rw [this.count_eq]; omega
    · cases h1
  have sch : ∀ {ev : Slab.Ev}, ((∃ i, ev = .schedOut i) ∨ (∃ i c, ev = .schedIn i c) ∨ ∃ i, ev = .signal i) → Slab.Pre cfg.slab w.s ev →
      w.sched cfg ev = some (w', out) →
      (w'.s.everything cfg.slab).count a + out.leaves.count a = [].count a + (w.s.everything cfg.slab).count a := by
    intro ev he h1 h2
    obtain ⟨s', e1, -, -, -, hev, -⟩ := Slab.sched_under hK.slab he h1
    simp only [W.sched, e1, Option.map_some] at h2
    injection h2 with h2; injection h2 with h3 h4
    subst h3 h4
    show (s'.everything cfg.slab).count a + 0 = 0 + _
    rw [hev.count_eq]; omega
  have idle : ∀ {i : Nat}, w.th[i]? = some St.idle → (∃ t : Slab.Thread, w.s.thr[i]? = some t ∧ t.cpu ≠ none) →
      ∃ t : Slab.Thread, w.s.thr[i]? = some t ∧ t.pc = .idle ∧ t.cpu ≠ none := by
    intro i hi hr
    obtain ⟨t, hrun, hfit, -⟩ := hK.run hi hr
    exact ⟨t, hrun.thr, call_pre hK hrun hfit, hrun.cpu⟩
  cases e with
  | malloc i x =>
    obtain ⟨hi, hu, hr⟩ := hp
    obtain ⟨t, h1, h2, h3⟩ := idle hi hr
    exact go rfl hs ⟨t, h1, h2, h3, hu.1⟩
  | free i x o =>
    obtain ⟨hi, hm, hr⟩ := hp
    have hm' : (x, o) ∈ w.s.held := by
      have := hK.held (x, o)
      have := List.count_pos_iff.mpr hm
      exact List.count_pos_iff.mp (by omega)
    obtain ⟨hu, hg⟩ := hK.hand_used hm'
    obtain ⟨t, h1, h2, h3⟩ := idle hi hr
    refine go ?_ hs ⟨t, h1, h2, h3, hu.1, hg, hm'⟩
    rfl
  | uncache i =>
    obtain ⟨hi, hr⟩ := hp
    obtain ⟨t, h1, h2, h3⟩ := idle hi hr
    exact go rfl hs ⟨t, h1, h2, h3, trivial⟩
  | drain i c =>
    injection hs with hs; injection hs with h1 h2; subst h1 h2
    show _ + 0 = 0 + _
    rw [Nat.add_zero, Nat.zero_add]; rfl
  | classes i c =>
    injection hs with hs; injection hs with h1 h2; subst h1 h2
    show _ + 0 = 0 + _
    rw [Nat.add_zero, Nat.zero_add]; rfl
  | steal i dst b =>
    injection hs with hs; injection hs with h1 h2; subst h1 h2
    show _ + 0 = 0 + _
    rw [Nat.add_zero, Nat.zero_add]; rfl
  | resize i nb ncaps lim => exact go rfl hs hp.2
  | release i => exact go rfl hs hp.2
  | act i ch =>
    obtain ⟨hr, st, hi, hv⟩ := hp
    simp only [step, hi] at hs
    have := stepTh_kept hK hi hr (fun h => (hv h).1) hs a
    show _ = 0 + _
    omega
  | fetched i l =>
    have add : ∀ k st, (((w.enter k l).go i st).s.everything cfg.slab).count a = (pairs k l).count a + (w.s.everything cfg.slab).count a := by
      intro k st
      rw [Slab.everything_count, Slab.everything_count]
      show ((pairs k l) ++ w.s.held).count a + w.s.hands.count a + (w.s.cells cfg.slab).count a = _
      rw [List.count_append]; omega
    obtain ⟨-, ⟨x, hi, -⟩ | ⟨r, hi, -⟩⟩ := hp
    · simp only [step, hi] at hs
      injection hs with hs; injection hs with h1 h2; subst h1 h2
      rw [add]; simp only [enters, hi]; rfl
    · simp only [step, hi] at hs
      injection hs with hs; injection hs with h1 h2; subst h1 h2
      rw [add]; simp only [enters, hi]; rfl
  | schedOut i => exact sch (Or.inl ⟨i, rfl⟩) hp hs
  | schedIn i c => exact sch (Or.inr (Or.inl ⟨i, c, rfl⟩)) hp hs
  | signal i => exact sch (Or.inr (Or.inr ⟨i, rfl⟩)) hp hs

/-- Blocks a step hands to the caller. -/
def Out.returned : Out → List (Nat × Nat)
  | .allocated k o _ => pairs k o.toList
  | _ => []

/-- Blocks a caller gives up with an event. -/
def Ev.freed : Ev → List (Nat × Nat)
  | .free _ k o => [(k, o)]
  | _ => []

theorem stepTh_user {w w' : W} {i : Nat} {ch : Ch} {st : St} {out : Out} (hs : stepTh cfg w i ch st = some (w', out)) :
    w'.user = out.returned ++ w.user := by
  cases st <;> simp only [stepTh, stepFast, stepGrow, stepRefill, stepOver, stepCpu, W.act, W.call, W.start, W.release, W.addAvail, W.handle] at hs
  case steal dst b acq ph out =>
    cases ph <;> cases out <;> simp only [stepSteal, W.act, W.call, W.start, W.release, W.addAvail] at hs
    all_goals (repeat' split at hs)
    all_goals first
      | (cases hs; done)
      | (injection hs with hs; injection hs with h1 h2; subst h1 h2; first | rfl | (split <;> rfl))
      | simp_all
    all_goals (obtain ⟨rfl, rfl⟩ := hs; rfl)
  case all out =>
    cases out <;> simp only [stepAll, W.act, W.release, W.handle, W.addAvail] at hs
    all_goals (repeat' split at hs)
    all_goals first
      | (cases hs; done)
      | (injection hs with hs; injection hs with h1 h2; subst h1 h2; rfl)
      | simp_all
    all_goals (obtain ⟨rfl, rfl⟩ := hs; rfl)
  case drain c d b out =>
    cases out
    all_goals (repeat' split at hs)
    all_goals first
      | (cases hs; done)
      | (injection hs with hs; injection hs with h1 h2; subst h1 h2; rfl)
      | simp_all
    all_goals (obtain ⟨rfl, rfl⟩ := hs; rfl)
  case classes c d out =>
    cases out
    all_goals (repeat' split at hs)
    all_goals first
      | (cases hs; done)
      | (injection hs with hs; injection hs with h1 h2; subst h1 h2; rfl)
      | simp_all
    all_goals (obtain ⟨rfl, rfl⟩ := hs; rfl)
  case retry q c =>
    cases q
    all_goals (repeat' split at hs)
    all_goals first
      | (cases hs; done)
      | (injection hs with hs; injection hs with h1 h2; subst h1 h2; rfl)
  all_goals (repeat' split at hs)
  all_goals first
    | (cases hs; done)
    | (injection hs with hs; injection hs with h1 h2; subst h1 h2; rfl)
    | simp_all
  all_goals (obtain ⟨rfl, rfl⟩ := hs; rfl)

/-- The caller's blocks are those it obtained and has not given up. -/
theorem user_exact (w w' : W) (e : Ev) (hp : Pre cfg w e) (out : Out)
    (hs : step cfg w e = some (w', out)) : (e.freed ++ w'.user).Perm (out.returned ++ w.user) := by
  have start : ∀ {w0 : W} {i : Nat} {op : Slab.Op} {st : St}, w0.start cfg i op st = some (w', out) → w'.user = w0.user ∧ out = .tau := by
    intro w0 i op st h1
    unfold W.start W.call at h1
    split at h1
    · injection h1 with h1; injection h1 with h3 h4; subst h3 h4; exact ⟨rfl, rfl⟩
    · cases h1
  have sch : ∀ {ev : Slab.Ev}, w.sched cfg ev = some (w', out) → w'.user = w.user ∧ out = .tau := by
    intro ev h1
    simp only [W.sched, Option.map_eq_some_iff] at h1
    obtain ⟨x, -, h2⟩ := h1
    injection h2 with h3 h4; subst h3 h4; exact ⟨rfl, rfl⟩
  cases e with
  | free i x o =>
    obtain ⟨h1, rfl⟩ := start hs
    rw [h1]
    exact (List.perm_cons_erase hp.2.1).symm
  | malloc i x => obtain ⟨h1, rfl⟩ := start hs; rw [h1]; exact .refl _
  | uncache i => obtain ⟨h1, rfl⟩ := start hs; rw [h1]; exact .refl _
  | resize i nb ncaps lim => obtain ⟨h1, rfl⟩ := start hs; rw [h1]; exact .refl _
  | release i => obtain ⟨h1, rfl⟩ := start hs; rw [h1]; exact .refl _
  | drain i c => injection hs with hs; injection hs with h1 h2; subst h1 h2; exact .refl _
  | classes i c => injection hs with hs; injection hs with h1 h2; subst h1 h2; exact .refl _
  | steal i dst b => injection hs with hs; injection hs with h1 h2; subst h1 h2; exact .refl _
  | act i ch =>
    simp only [step] at hs
    split at hs
    · have := stepTh_user hs
      rw [this]; exact .refl _
    · cases hs
  | fetched i l =>
    simp only [step] at hs
    split at hs
    · injection hs with hs; injection hs with h1 h2; subst h1 h2; exact .refl _
    · injection hs with hs; injection hs with h1 h2; subst h1 h2; exact .refl _
    · cases hs
  | schedOut i => obtain ⟨h1, rfl⟩ := sch hs; rw [h1]; exact .refl _
  | schedIn i c => obtain ⟨h1, rfl⟩ := sch hs; rw [h1]; exact .refl _
  | signal i => obtain ⟨h1, rfl⟩ := sch hs; rw [h1]; exact .refl _

/-- The caller's blocks are never at the same time in the cache or in the hands of a thread. -/
theorem user_within (hcfg : cfg.OK limit) (w : W) (h : Reach cfg limit w) (a : Nat × Nat) :
    w.user.count a ≤ (w.s.everything cfg.slab).count a := by
  have := (h.K hcfg).held a
  rw [Slab.everything_count]
  omega

/-! What the records of `refill_exact` and `overflow_exact` are. -/

/-- The record of a refill in progress: objects obtained, stored in the cache, given back. -/
def St.refill : St → Option Refill
  | .fetch r | .store r _ _ | .storing r _ _ | .back r _ | .done r => some r
  | _ => none

/-- The record of an overflow in progress: objects taken from the cache, given to the layer below. -/
def St.over : St → Option Over
  | .gather v | .gathering v _ | .flush v | .fdone v => some v
  | _ => none

def St.fetched (st : St) : List Nat := match st.refill with | some r => r.fetched | none => []
def St.stored (st : St) : List Nat := match st.refill with | some r => r.stored | none => []
def St.returned (st : St) : List Nat := match st.refill with | some r => r.back | none => []
def St.popped (st : St) : List Nat := match st.over with | some v => v.popped | none => []
def St.sent (st : St) : List Nat := match st.over with | some v => v.sent | none => []

theorem go_th {w : W} {i : Nat} {st st1 st' : St} (hi : w.th[i]? = some st) (h : (w.th.set i st1)[i]? = some st') : st' = st1 := by
  have hlt : i < w.th.length := by
    rcases Nat.lt_or_ge i w.th.length with h | h
    · exact h
    · rw [List.getElem?_eq_none h] at hi; cases hi
  rw [List.getElem?_set_self hlt] at h
  injection h with h; exact h.symm

/-- **C29.** The record of objects obtained is what the layer below gave. -/
theorem fetched_recorded (w w' : W) (i : Nat) (l : List Nat) (out : Out) (hs : step cfg w (.fetched i l) = some (w', out))
    (st st' : St) (hi : w.th[i]? = some st) (hi' : w'.th[i]? = some st') :
    st'.fetched = st.fetched ++ l ∧ st'.stored = st.stored ∧ st'.returned = st.returned := by
  simp only [step, hi] at hs
  split at hs
  · rename_i k e
    injection hs with hs; injection hs with h1 h2; subst h1
    injection e with e; subst e
    rw [go_th (w := w) hi hi']
    exact ⟨rfl, rfl, rfl⟩
  · rename_i r e
    injection hs with hs; injection hs with h1 h2; subst h1
    injection e with e; subst e
    rw [go_th (w := w) hi hi']
    have nx : ∀ (r : Refill) g, (r.next g).refill = some r := by
      intro r g
      rcases r.next_cases g with ⟨e, -⟩ | e <;> rw [e] <;> rfl
    unfold Refill.got
    split
    · rename_i hl; subst hl
      refine ⟨?_, rfl, rfl⟩
      show r.fetched = r.fetched ++ []
      rw [List.append_nil]
    · simp only
      split
      · split
        · unfold St.fetched St.stored St.returned
          rw [nx]; exact ⟨rfl, rfl, rfl⟩
        · exact ⟨rfl, rfl, rfl⟩
      · exact ⟨rfl, rfl, rfl⟩
  · cases hs

/-- Steps that are not part of a refill or an overflow do not end in one. -/
theorem log_quiet {w w' : W} {i : Nat} {ch : Ch} {st : St} {out : Out} (hs : stepTh cfg w i ch st = some (w', out))
    (hi : w.th[i]? = some st) {st' : St} (hi' : w'.th[i]? = some st')
    (h : (∀ r l g, st ≠ .storing r l g) ∧ (∀ r l, st ≠ .back r l) ∧ (∀ v, st ≠ .flush v) ∧ (∀ v n, st ≠ .gathering v n) ∧ ∀ k o, st ≠ .sendOne k o) :
    (st'.refill ≠ none → st'.fetched = st.fetched ∧ st'.stored = st.stored ∧ st'.returned = st.returned ∧ out.leaves = []) ∧
    (st'.over ≠ none → st'.popped = st.popped ∧ st'.sent = st.sent ∧ out.leaves = []) := by
  obtain ⟨n1, n2, n3, n4, n5⟩ := h
  have same : ∀ {x : W} , x.th = w.th → x.th[i]? = some st' → st' = st := by
    intro x e h; rw [e, hi] at h; injection h with h; exact h.symm
  cases st <;> simp only [stepTh, stepFast, stepGrow, stepRefill, stepOver, stepCpu, W.act, W.call, W.start, W.release, W.addAvail, W.handle] at hs
  case storing r l g => exact absurd rfl (n1 r l g)
  case back r l => exact absurd rfl (n2 r l)
  case flush v => exact absurd rfl (n3 v)
  case gathering v n => exact absurd rfl (n4 v n)
  case sendOne k o => exact absurd rfl (n5 k o)
  case steal dst b acq ph out =>
    cases ph <;> cases out <;> simp only [stepSteal, W.act, W.call, W.start, W.release, W.addAvail] at hs
    all_goals (repeat' split at hs)
    all_goals first
      | (cases hs; done)
      | (injection hs with hs; injection hs with h1 h2; subst h1 h2; rw [go_th (w := w) hi hi']; exact ⟨fun h => absurd rfl h, fun h => absurd rfl h⟩)
      | (injection hs with hs; injection hs with h1 h2; subst h1 h2; rw [same (x := _) rfl hi']; exact ⟨fun h => absurd rfl h, fun h => absurd rfl h⟩)
      | (simp only [Option.map_some] at hs; injection hs with hs; injection hs with h1 h2; subst h1 h2; rw [go_th (w := w) hi hi']; exact ⟨fun h => absurd rfl h, fun h => absurd rfl h⟩)
      | (injection hs with hs; injection hs with h1 h2; subst h1 h2; split at hi'; rw [same (x := _) rfl hi']; exact ⟨fun h => absurd rfl h, fun h => absurd rfl h⟩;  rw [go_th (w := w) hi hi']; exact ⟨fun h => absurd rfl h, fun h => absurd rfl h⟩)
  case all out =>
    cases out <;> simp only [stepAll, W.act, W.release, W.handle, W.addAvail] at hs
    all_goals (repeat' split at hs)
    all_goals first
      | (cases hs; done)
      | (injection hs with hs; injection hs with h1 h2; subst h1 h2; rw [go_th (w := w) hi hi']; exact ⟨fun h => absurd rfl h, fun h => absurd rfl h⟩)
      | (injection hs with hs; injection hs with h1 h2; subst h1 h2; rw [same (x := _) rfl hi']; exact ⟨fun h => absurd rfl h, fun h => absurd rfl h⟩)
      | (simp only [Option.map_some] at hs; injection hs with hs; injection hs with h1 h2; subst h1 h2; rw [go_th (w := w) hi hi']; exact ⟨fun h => absurd rfl h, fun h => absurd rfl h⟩)
  case drain c d b out =>
    cases out
    all_goals (repeat' split at hs)
    all_goals first
      | (cases hs; done)
      | (injection hs with hs; injection hs with h1 h2; subst h1 h2; rw [go_th (w := w) hi hi']; exact ⟨fun h => absurd rfl h, fun h => absurd rfl h⟩)
      | (injection hs with hs; injection hs with h1 h2; subst h1 h2; rw [same (x := _) rfl hi']; exact ⟨fun h => absurd rfl h, fun h => absurd rfl h⟩)
      | (simp only [Option.map_some] at hs; injection hs with hs; injection hs with h1 h2; subst h1 h2; rw [go_th (w := w) hi hi']; exact ⟨fun h => absurd rfl h, fun h => absurd rfl h⟩)
  case classes c d out =>
    cases out
    all_goals (repeat' split at hs)
    all_goals first
      | (cases hs; done)
      | (injection hs with hs; injection hs with h1 h2; subst h1 h2; rw [go_th (w := w) hi hi']; exact ⟨fun h => absurd rfl h, fun h => absurd rfl h⟩)
      | (injection hs with hs; injection hs with h1 h2; subst h1 h2; rw [same (x := _) rfl hi']; exact ⟨fun h => absurd rfl h, fun h => absurd rfl h⟩)
      | (simp only [Option.map_some] at hs; injection hs with hs; injection hs with h1 h2; subst h1 h2; rw [go_th (w := w) hi hi']; exact ⟨fun h => absurd rfl h, fun h => absurd rfl h⟩)
  case retry q c =>
    cases q <;> dsimp only [stepFast, W.start, W.call] at hs
    all_goals (repeat' split at hs)
    all_goals first
      | (cases hs; done)
      | (injection hs with hs; injection hs with h1 h2; subst h1 h2; rw [go_th (w := w) hi hi']; exact ⟨fun h => absurd rfl h, fun h => absurd rfl h⟩)
  all_goals (repeat' split at hs)
  all_goals first
    | (cases hs; done)
    | (injection hs with hs; injection hs with h1 h2; subst h1 h2; rw [go_th (w := w) hi hi']; exact ⟨fun h => absurd rfl h, fun h => absurd rfl h⟩)
    | (injection hs with hs; injection hs with h1 h2; subst h1 h2; rw [same (x := _) rfl hi']; exact ⟨fun h => absurd rfl h, fun h => absurd rfl h⟩)
    | (simp only [Option.map_some] at hs; injection hs with hs; injection hs with h1 h2; subst h1 h2; rw [go_th (w := w) hi hi']; exact ⟨fun h => absurd rfl h, fun h => absurd rfl h⟩)
    | (injection hs with hs; injection hs with h1 h2; subst h1 h2; rw [go_th (w := w) hi hi']; exact ⟨fun _ => ⟨rfl, rfl, rfl, rfl⟩, fun _ => ⟨rfl, rfl, rfl⟩⟩)
    | (injection hs with hs; injection hs with h1 h2; subst h1 h2; rw [same (x := _) rfl hi']; exact ⟨fun _ => ⟨rfl, rfl, rfl, rfl⟩, fun _ => ⟨rfl, rfl, rfl⟩⟩)
    | (injection hs with hs; injection hs with h1 h2; subst h1 h2; have e := go_th (w := w) hi hi'; split at e <;> (rw [e]; exact ⟨fun h => absurd rfl h, fun h => absurd rfl h⟩))

theorem pairs_snd (k : Nat) (l : List Nat) : (pairs k l).map (·.2) = l := by
  unfold pairs; rw [List.map_map]; exact List.map_id l

/-- **C29.** The record of objects stored is what was appended to the class of the cache of the CPU the thread runs on,
the record of objects given back what was given to the layer below; obtained is nothing. -/
theorem refill_recorded (hcfg : cfg.OK limit) (w w' : W) (h : Reach cfg limit w) (i : Nat) (ch : Ch) (hp : Pre cfg w (.act i ch))
    (out : Out) (hs : step cfg w (.act i ch) = some (w', out)) (st st' : St) (hi : w.th[i]? = some st) (hi' : w'.th[i]? = some st')
    (r' : Refill) (hr' : st'.refill = some r') :
    st'.fetched = st.fetched ∧ st'.returned = st.returned ++ out.leaves.map (·.2) ∧
    ∃ x, st'.stored = st.stored ++ x ∧
      (x ≠ [] → ∃ t c, w.s.thr[i]? = some t ∧ t.cpu = some c ∧ w'.s.cell c r'.k = w.s.cell c r'.k ++ x.reverse) := by
  have hK := h.K hcfg
  obtain ⟨hr, st0, hi0, hv⟩ := hp
  rw [hi] at hi0; injection hi0 with hi0; subst hi0
  simp only [step, hi] at hs
  have nr : st'.refill ≠ none := by rw [hr']; exact fun h => by cases h
  by_cases hst : (∀ r l g, st ≠ .storing r l g) ∧ (∀ r l, st ≠ .back r l) ∧ (∀ v, st ≠ .flush v) ∧ (∀ v n, st ≠ .gathering v n) ∧ ∀ k o, st ≠ .sendOne k o
  · obtain ⟨h1, h2, h3, h4⟩ := (log_quiet hs hi hi' hst).1 nr
    exact ⟨h1, by rw [h3, h4]; simp, [], by rw [h2]; simp, fun h => absurd rfl h⟩
  · have bad : ∀ {st1 : St}, st1.refill = none → st' = st1 → False := fun e e' => nr (by rw [e', e])
    cases st
    case storing r l got =>
      obtain ⟨h1, h2, h3, h4⟩ : r.OK cfg l ∧ l ≠ [] ∧ l.length ≤ kMaxObjectsToMove ∧ r.back = [] := hK.ok i _ hi
      obtain ⟨t, c, s', o, kd, ret, a, hfit, -⟩ := hK.acts hi hr ch.s (fun h => (hv h).1)
      have hfit : w.s.kind t.pc = .pushB r.k l := hfit
      have hcpu : t.cpu = some c := a.on
      have haf := a.after; rw [hfit] at haf
      have hk := Slab.kind_regs w.s t.pc
      rw [hfit] at hk
      simp only [stepTh, stepRefill, W.act, a.step] at hs
      rcases haf with ⟨rfl, rfl⟩ | ⟨n, hn, rfl, rfl⟩
      · injection hs with hs; injection hs with e1 e2; subst e1 e2
        have : st' = .storing r l got := by
          have : w.th[i]? = some st' := hi'
          rw [hi] at this; injection this with this; exact this.symm
        subst this
        exact ⟨rfl, by simp [Out.leaves], [], by simp, fun h => absurd rfl h⟩
      · dsimp only at hs
        rw [if_neg (by omega)] at hs
        injection hs with hs; injection hs with e1 e2; subst e1 e2
        obtain ⟨x, l', e1, e2, e3, e4, e5, e6, e7, e8⟩ := a.eff
        have hx : x = r.k := by
          have := hk.2
          rw [e2] at this; injection this
        subst hx
        have hl : l' = l := by
          have := hk.1
          rw [e1] at this
          exact List.map_inj_right (fun _ _ h => by injection h) |>.mp this
        subst hl
        have key : st'.refill = some { r with stored := r.stored ++ l'.drop (l'.length - n) } := by
          rw [go_th (w := w) hi hi']
          split
          · rcases Refill.next_cases { r with stored := r.stored ++ l'.drop (l'.length - n) } got with ⟨e, -⟩ | e <;> rw [e] <;> rfl
          · rfl
        rw [key] at hr'
        injection hr' with hr'
        subst hr'
        unfold St.fetched St.returned St.stored
        rw [key]
        exact ⟨rfl, by simp [Out.leaves, St.refill], _, rfl, fun _ => ⟨t, c, a.thr, hcpu, e6⟩⟩
    case back r l =>
      simp only [stepTh, stepRefill, W.release] at hs
      split at hs
      · cases hs
      · injection hs with hs; injection hs with e1 e2; subst e1 e2
        rw [go_th (w := w) hi hi']
        have hb : r.back = [] := (hK.ok i _ hi).2.2.2
        refine ⟨rfl, ?_, [], by simp [St.stored, St.refill], fun h => absurd rfl h⟩
        show l = r.back ++ (pairs r.k l).map (·.2)
        rw [pairs_snd, hb]; rfl
    case flush v =>
      simp only [stepTh, stepOver, W.release, Option.map_eq_some_iff] at hs
      obtain ⟨y, hy, hs⟩ := hs
      split at hy
      · cases hy
      · injection hy with hy; subst hy
        injection hs with e1 e2; subst e1 e2
        exact (bad (by split <;> rfl) (go_th (w := w) hi hi')).elim
    case gathering v n =>
      simp only [stepTh, stepOver, W.act] at hs
      split at hs
      · split at hs
        · injection hs with hs; injection hs with e1 e2; subst e1 e2
          have : w.th[i]? = some st' := hi'
          rw [hi] at this; injection this with this
          exact (bad rfl this.symm).elim
        · injection hs with hs; injection hs with e1 e2; subst e1 e2
          exact (bad (by split <;> rfl) (go_th (w := w) hi hi')).elim
        · cases hs
      · cases hs
    case sendOne k o =>
      simp only [stepTh, stepFast, W.release] at hs
      split at hs
      · cases hs
      · injection hs with hs; injection hs with e1 e2; subst e1 e2
        exact (bad rfl (go_th (w := w) hi hi')).elim
    all_goals exact absurd ⟨by simp, by simp, by simp, by simp, by simp⟩ hst

/-- **C29.** The record of objects taken is what was removed from the top of the class of the cache of the CPU the
thread runs on, the record of objects sent what was given to the layer below. -/
theorem overflow_recorded (hcfg : cfg.OK limit) (w w' : W) (h : Reach cfg limit w) (i : Nat) (ch : Ch) (hp : Pre cfg w (.act i ch))
    (out : Out) (hs : step cfg w (.act i ch) = some (w', out)) (st st' : St) (hi : w.th[i]? = some st) (hi' : w'.th[i]? = some st')
    (v' : Over) (hv' : st'.over = some v') :
    st'.sent = st.sent ++ out.leaves.map (·.2) ∧
    ∃ x, st'.popped = st.popped ++ x ∧
      (x ≠ [] → ∃ t c, w.s.thr[i]? = some t ∧ t.cpu = some c ∧ w.s.cell c v'.k = w'.s.cell c v'.k ++ x.reverse) := by
  have hK := h.K hcfg
  obtain ⟨hr, st0, hi0, hv⟩ := hp
  rw [hi] at hi0; injection hi0 with hi0; subst hi0
  simp only [step, hi] at hs
  have nr : st'.over ≠ none := by rw [hv']; exact fun h => by cases h
  by_cases hst : (∀ r l g, st ≠ .storing r l g) ∧ (∀ r l, st ≠ .back r l) ∧ (∀ v, st ≠ .flush v) ∧ (∀ v n, st ≠ .gathering v n) ∧ ∀ k o, st ≠ .sendOne k o
  · obtain ⟨h1, h2, h3⟩ := (log_quiet hs hi hi' hst).2 nr
    exact ⟨by rw [h2, h3]; simp, [], by rw [h1]; simp, fun h => absurd rfl h⟩
  · have bad : ∀ {st1 : St}, st1.over = none → st' = st1 → False := fun e e' => nr (by rw [e', e])
    cases st
    case gathering v n =>
      obtain ⟨t, c, s', o, kd, ret, a, hfit, -⟩ := hK.acts hi hr ch.s (fun h => (hv h).1)
      have hfit : w.s.kind t.pc = .popB v.k n := hfit
      have hcpu : t.cpu = some c := a.on
      have haf := a.after; rw [hfit] at haf
      have hk := Slab.kind_regs w.s t.pc
      rw [hfit] at hk
      simp only [stepTh, stepOver, W.act, a.step] at hs
      rcases haf with ⟨rfl, rfl⟩ | ⟨l, hn, rfl, rfl⟩
      · injection hs with hs; injection hs with e1 e2; subst e1 e2
        have : st' = .gathering v n := by
          have : w.th[i]? = some st' := hi'
          rw [hi] at this; injection this with this; exact this.symm
        subst this
        exact ⟨by simp [Out.leaves], [], by simp, fun h => absurd rfl h⟩
      · dsimp only at hs
        injection hs with hs; injection hs with e1 e2; subst e1 e2
        obtain ⟨x, e2, e3, e4, e5, e6, e7, e8⟩ := a.eff
        have hx : x = v.k := by
          have := hk.1
          rw [e2] at this; injection this
        subst hx
        have key : st'.over = some { v with batch := v.batch ++ l, popped := v.popped ++ l } := by
          rw [go_th (w := w) hi hi']
          split <;> rfl
        rw [key] at hv'
        injection hv' with hv'
        subst hv'
        unfold St.sent St.popped
        rw [key]
        exact ⟨by simp [Out.leaves, St.over], _, rfl, fun _ => ⟨t, c, a.thr, hcpu, e6⟩⟩
    case flush v =>
      simp only [stepTh, stepOver, W.release, Option.map_eq_some_iff] at hs
      obtain ⟨y, hy, hs⟩ := hs
      split at hy
      · cases hy
      · injection hy with hy; subst hy
        injection hs with e1 e2; subst e1 e2
        have key : st'.over = some { v with total := v.total + v.batch.length, sent := v.sent ++ v.batch, batch := [] } := by
          rw [go_th (w := w) hi hi']
          split <;> rfl
        unfold St.sent St.popped
        rw [key]
        refine ⟨?_, [], by simp [St.over], fun h => absurd rfl h⟩
        show v.sent ++ v.batch = v.sent ++ (pairs v.k v.batch).map (·.2)
        rw [pairs_snd]
    case sendOne k o =>
      simp only [stepTh, stepFast, W.release] at hs
      split at hs
      · cases hs
      · injection hs with hs; injection hs with e1 e2; subst e1 e2
        rw [go_th (w := w) hi hi']
        exact ⟨rfl, [], rfl, fun h => absurd rfl h⟩
    case storing r l got =>
      simp only [stepTh, stepRefill, W.act] at hs
      split at hs
      · split at hs
        · injection hs with hs; injection hs with e1 e2; subst e1 e2
          have : w.th[i]? = some st' := hi'
          rw [hi] at this; injection this with this
          exact (bad rfl this.symm).elim
        · split at hs
          · cases hs
          · injection hs with hs; injection hs with e1 e2; subst e1 e2
            refine (bad ?_ (go_th (w := w) hi hi')).elim
            split
            · rename_i n _ _ _
              rcases Refill.next_cases { r with stored := r.stored ++ l.drop (l.length - n) } got with ⟨e, -⟩ | e <;> rw [e] <;> rfl
            · rfl
        · cases hs
      · cases hs
    case back r l =>
      simp only [stepTh, stepRefill, W.release] at hs
      split at hs
      · cases hs
      · injection hs with hs; injection hs with e1 e2; subst e1 e2
        exact (bad rfl (go_th (w := w) hi hi')).elim
    all_goals exact absurd ⟨by simp, by simp, by simp, by simp, by simp⟩ hst

/-! ### C45: release of the metadata of drained slabs -/

/-- **C45.** If no thread has bytes of the budgets of the CPUs to be released in hand, the release finds every budget
whole: its check does not fail.  Missing: threads that have, between taking bytes from the counter and giving them to a
class; then the check does fail (`release_check_fails`). -/
theorem release_check_partial (hcfg : cfg.OK limit) (w : W) (h : Reach cfg limit w) (ch : Slab.Ch)
    (hq : ∀ c, c < cfg.slab.n → ch.set c = true → w.purse c = 0 ∧ w.owed c = 0) : checkRelease cfg w ch = true := by
  have hK := h.K hcfg
  unfold checkRelease
  cases hu : unpopulates cfg w ch with
  | false => rfl
  | true =>
    rw [Bool.not_true, Bool.false_or, List.all_eq_true]
    intro c hc
    rw [List.mem_range] at hc
    cases hset : ch.set c with
    | false => rfl
    | true =>
      rw [Bool.not_true, Bool.false_or, decide_eq_true_eq]
      obtain ⟨q1, q2⟩ := hq c hc hset
      have hb := hK.bud c hc
      have hz : bytes cfg w.s c = 0 := by
        unfold bytes
        rw [List.sum_eq_zero_iff_forall_eq_nat]
        intro y hy
        rw [List.mem_map] at hy
        obtain ⟨k, hk, rfl⟩ := hy
        rw [List.mem_range] at hk
        have : w.s.space c (k + 1) = 0 := by
          unfold unpopulates at hu
          split at hu
          · rename_i i r e
            simp only [Bool.and_eq_true, decide_eq_true_eq, Option.isNone_iff_eq_none, beq_iff_eq, List.all_eq_true] at hu
            obtain ⟨⟨⟨⟨u1, u2⟩, u3⟩, u4⟩, u5⟩ := hu
            have hold : w.s.old c (k + 1) = none := Slab.old_none (fun i' r' e' => by
              rw [e] at e'; injection e' with e'; injection e' with _ e'; rw [← e']; exact u2)
            unfold Slab.W.space
            rw [(Slab.left_none hold).2, Nat.zero_add]
            unfold Slab.W.capacity
            split
            · rename_i hp
              have hfree : w.s.allFree = false := by
                unfold Slab.W.allFree; rw [e]; simp only [u2]
              have hrem := hK.slab.K.excl hfree c
              have heff : w.s.eff c (k + 1) = w.s.mem.hdr w.s.slabs c (k + 1) := by
                unfold Slab.W.eff; rw [hrem]
              have hd := u5 c (List.mem_range.mpr hc)
              rw [hset, hp] at hd
              simp only [Bool.and_self, Bool.not_true, Bool.false_or] at hd
              unfold Slab.W.drained at hd
              rw [List.all_eq_true] at hd
              have := hd (k + 1) (List.mem_range.mpr (by omega))
              simp only [Nat.add_eq_zero_iff, Nat.succ_ne_self, and_false, decide_false, Bool.false_or, decide_eq_true_eq] at this
              rw [heff]
              omega
            · rfl
          · cases hu
        rw [this, Nat.mul_zero]
      omega

end Verif.CpuCache
