import Verif.CpuCache.Fast
/-! Refill and overflow preserve the invariant. -/
namespace Verif.CpuCache
open Slab (Valid GoodObj Kind Sub Under Same SameBut Effect After)

variable {cfg : Cfg} {limit : Nat}

theorem Refill.next_cases (r : Refill) (got : Nat) :
    (r.next got = .fetch r ∧ r.total < r.target) ∨ r.next got = .done r := by
  unfold Refill.next
  split
  · rename_i h; exact Or.inl ⟨rfl, h.2⟩
  · exact Or.inr rfl

theorem pairs_count_append (k : Nat) (l m : List Nat) (a : Nat × Nat) :
    (pairs k (l ++ m)).count a = (pairs k l).count a + (pairs k m).count a := by
  simp [pairs, List.map_append, List.count_append]

/-! ### Refill -/

theorem fetch_K {w : W} (k : K cfg limit w) {i : Nat} {r : Refill} (hi : w.th[i]? = some (.fetch r)) (ch : Ch) :
    ∃ w' out, stepRefill cfg w i ch (.fetch r) = some (w', out) ∧ K cfg limit w' := by
  obtain ⟨h1, h2, h3⟩ := k.ok i _ hi
  refine ⟨w, .tau, ?_, k⟩
  simp only [stepRefill]
  rw [if_neg (by omega)]

theorem store_K {w : W} (k : K cfg limit w) {i got : Nat} {r : Refill} {l : List Nat} (hi : w.th[i]? = some (.store r l got))
    (hr : ∃ t : Slab.Thread, w.s.thr[i]? = some t ∧ t.cpu ≠ none) (ch : Ch) :
    ∃ w' out, stepRefill cfg w i ch (.store r l got) = some (w', out) ∧ K cfg limit w' := by
  obtain ⟨h1, h2, h3, h4⟩ : r.OK cfg l ∧ l ≠ [] ∧ l.length ≤ kMaxObjectsToMove ∧ r.back = [] := k.ok i _ hi
  obtain ⟨t, hrun, hfit, hcpu⟩ := k.run hi hr
  have hpc := call_pre k hrun hfit
  have hle : ∀ a, (pairs r.k l).count a ≤ w.s.held.count a := by
    intro a
    have := k.hand_le hi a
    have e : (St.store r l got).hand = pairs r.k r.res.toList ++ pairs r.k l := rfl
    rw [e, List.count_append] at this
    omega
  have hgood : ∀ o ∈ l, GoodObj o := by
    intro o ho
    have : (r.k, o) ∈ w.s.held := k.hand_mem hi (x := (r.k, o)) (List.mem_append_right _ (List.mem_map.mpr ⟨o, ho, rfl⟩))
    exact (k.hand_used this).2
  have hcount := Slab.eraseAll_count (pairs r.k l) w.s.held hle
  simp only [stepRefill]
  refine k.start (st' := .storing r l got) hi hr ⟨t, hrun.thr, hpc, hrun.cpu, h1.used.1, h2, hgood, hle⟩ (fun h => by cases h) rfl rfl rfl
    (fun _ h => by cases h) ?_ ⟨h1, h2, h3, h4⟩ (fun h => by cases h) (fun _ _ => rfl) rfl
  intro a
  show (Slab.eraseAll w.s.held (pairs r.k l)).count a + _ + (pairs r.k r.res.toList ++ pairs r.k l).count a =
    _ + _ + (pairs r.k r.res.toList).count a
  rw [List.count_append]
  have := hcount a
  omega

theorem storing_K {w : W} (k : K cfg limit w) {i got : Nat} {r : Refill} {l : List Nat} (hi : w.th[i]? = some (.storing r l got))
    (hr : ∃ t : Slab.Thread, w.s.thr[i]? = some t ∧ t.cpu ≠ none) (ch : Ch) (hv : 2 ≤ ch.s.op → Valid cfg.slab.nc ch.s.k) :
    ∃ w' out, stepRefill cfg w i ch (.storing r l got) = some (w', out) ∧ K cfg limit w' := by
  obtain ⟨h1, h2, h3, h4⟩ : r.OK cfg l ∧ l ≠ [] ∧ l.length ≤ kMaxObjectsToMove ∧ r.back = [] := k.ok i _ hi
  obtain ⟨t, c, s', out, kd, ret, a, hfit, hcpu⟩ := k.acts hi hr ch.s (fun _ => hv)
  have hfit : w.s.kind t.pc = .pushB r.k l := hfit
  have haf := a.after; rw [hfit] at haf
  have hk := Slab.kind_regs w.s t.pc
  rw [hfit] at hk
  simp only [stepRefill, W.act, a.step]
  rcases haf with ⟨rfl, rfl⟩ | ⟨n, hn, rfl, rfl⟩
  · exact ⟨_, _, rfl, k.silent hi a rfl (fun c e => by cases e)⟩
  · simp only
    rw [if_neg (by omega)]
    obtain ⟨x, l', e1, e2, e3, e4, e5, e6, e7, e8⟩ := a.eff
    have hx : x = r.k := by
      have := hk.2
      rw [e2] at this; injection this
    subst hx
    have hl : l' = l := by
      have := hk.1
      rw [e1] at this
      exact List.map_inj_right (fun _ _ h => by injection h) |>.mp this
    subst hl
    have hsp : ∀ b, l'.count b = (l'.take (l'.length - n)).count b + (l'.drop (l'.length - n)).count b := by
      intro b; rw [← List.count_append, List.take_append_drop]
    refine ⟨_, _, rfl, ?_⟩
    generalize l'.take (l'.length - n) = tk at *
    generalize l'.drop (l'.length - n) = dr at *
    have hlen : tk.length ≤ l'.length := by
      have : tk.length + dr.length = l'.length := by
        have : (tk ++ dr).Perm l' := List.perm_iff_count.mpr fun b => by rw [List.count_append]; exact (hsp b).symm
        rw [← this.length_eq, List.length_append]
      omega
    have hok : Refill.OK cfg { r with stored := r.stored ++ dr } tk := by
      refine ⟨h1.used, ?_, h1.tot, h1.le, h1.res⟩
      rw [List.perm_iff_count]
      intro b
      have := h1.perm.count_eq b
      simp only [List.count_append] at this ⊢
      have := hsp b
      omega
    by_cases e : tk = []
    · rw [if_pos e]
      subst e
      rcases Refill.next_cases { r with stored := r.stored ++ dr } got with ⟨e, h⟩ | e
      · rw [e]
        refine k.acted (st' := .fetch _) hi a rfl rfl rfl rfl rfl (fun _ h => by cases h) ?_ ⟨hok, h, h4⟩ (fun h => by cases h) (fun c h => bytes_keep e3 e5 h)
          (fun _ => ⟨rfl, rfl⟩) rfl
        intro b; rw [e4]; rfl
      · rw [e]
        refine k.acted (st' := .done _) hi a rfl rfl rfl rfl rfl (fun _ h => by cases h) ?_ hok (fun h => by cases h) (fun c h => bytes_keep e3 e5 h)
          (fun _ => ⟨rfl, rfl⟩) rfl
        intro b; rw [e4]; rfl
    · rw [if_neg e]
      refine k.acted (st' := .back _ _) hi a rfl rfl rfl rfl rfl (fun _ h => by cases h) ?_ ⟨hok, e, by omega, h4⟩ (fun h => by cases h) (fun c h => bytes_keep e3 e5 h)
          (fun _ => ⟨rfl, rfl⟩) rfl
      intro b
      show s'.held.count b + w.user.count b + (pairs r.k r.res.toList).count b = _ + w.user.count b + (pairs r.k r.res.toList ++ pairs r.k tk).count b
      rw [e4, List.count_append, List.count_append]
      simp only [pairs]
      omega

theorem back_K {w : W} (k : K cfg limit w) {i : Nat} {r : Refill} {l : List Nat} (hi : w.th[i]? = some (.back r l)) (ch : Ch) :
    ∃ w' out, stepRefill cfg w i ch (.back r l) = some (w', out) ∧ K cfg limit w' := by
  obtain ⟨h1, h2, h3, h4⟩ : r.OK cfg l ∧ l ≠ [] ∧ l.length ≤ kMaxObjectsToMove ∧ r.back = [] := k.ok i _ hi
  have hok : Refill.OK cfg { r with back := l } [] := by
    refine ⟨h1.used, ?_, h1.tot, h1.le, h1.res⟩
    have := h1.perm
    rw [h4] at this
    simpa using this
  have hh : ∀ a, (St.back r l).hand.count a = (pairs r.k l).count a + (St.done { r with back := l }).hand.count a := by
    intro a
    show (pairs r.k r.res.toList ++ pairs r.k l).count a = _ + (pairs r.k r.res.toList).count a
    rw [List.count_append]; omega
  obtain ⟨w', e, hK⟩ := k.release (l := l) (c := r.k) (st' := .done { r with back := l }) hi h2 h3
    (fun _ h => h) (fun _ h => by cases h) hh hok (fun h => by cases h) (fun _ => ⟨rfl, rfl⟩) rfl
  exact ⟨_, _, by simp only [stepRefill, e, Option.map_some]; rfl, hK⟩

theorem done_K {w : W} (k : K cfg limit w) {i : Nat} {r : Refill} (hi : w.th[i]? = some (.done r)) (ch : Ch) :
    ∃ w' out, stepRefill cfg w i ch (.done r) = some (w', out) ∧ K cfg limit w' := by
  refine ⟨_, _, rfl, k.stay (st' := .idle) hi rfl rfl (fun _ h => h) (fun _ h => by cases h) ?_ trivial (fun h => by cases h) (fun _ _ => rfl) rfl⟩
  intro a
  show _ + (pairs r.k r.res.toList).count a = (pairs r.k r.res.toList ++ w.user).count a + 0
  rw [List.count_append]; omega

theorem getLast_toList (l : List Nat) : l.dropLast ++ l.getLast?.toList = l := by
  cases l with
  | nil => rfl
  | cons a l =>
    rw [List.getLast?_eq_some_getLast (by simp)]
    exact List.dropLast_concat_getLast (by simp)

theorem fetched_direct_K {w : W} (k : K cfg limit w) {i x : Nat} (hi : w.th[i]? = some (.direct x)) {l : List Nat}
    (hl : l.length ≤ 1) (hg : ∀ o ∈ l, GoodObj o) :
    K cfg limit ((w.enter x l).go i (.done ⟨x, 1, l.length, l.getLast?, l, [], []⟩)) := by
  have hok : cfg.Used x := k.ok i _ hi
  have hlast : l.getLast?.toList = l := by
    match l, hl with
    | [], _ => rfl
    | [a], _ => rfl
  refine k.enter hi hok hg (fun _ h => h) rfl ?_ ?_ rfl (fun _ => ⟨rfl, rfl⟩) rfl
  · intro a
    show (pairs x l.getLast?.toList).count a = _ + 0
    rw [hlast]; omega
  · refine ⟨hok, ?_, rfl, hl, fun h => List.getLast?_eq_none_iff.mp h⟩
    show l.Perm (l.getLast?.toList ++ [] ++ [] ++ [])
    simp [hlast]

theorem fetched_K {w : W} (k : K cfg limit w) {i : Nat} {r : Refill} (hi : w.th[i]? = some (.fetch r)) {l : List Nat}
    (hl : l.length ≤ min kMaxObjectsToMove (r.target - r.total)) (hg : ∀ o ∈ l, GoodObj o) :
    K cfg limit ((w.enter r.k l).go i (r.got l)) := by
  obtain ⟨h1, h2, h3⟩ := k.ok i _ hi
  unfold Refill.got
  by_cases e : l = []
  · rw [if_pos e]
    subst e
    exact k.enter hi h1.used hg (fun _ h => h) rfl (fun a => (Nat.zero_add _).symm) h1 rfl (fun _ => ⟨rfl, rfl⟩) rfl
  rw [if_neg e]
  have htot : (r.total + l.length = (r.fetched ++ l).length) := by rw [List.length_append, h1.tot]
  have hlen : 0 < l.length := List.length_pos_iff.mpr e
  cases hres : r.res with
  | none =>
    have hf := h1.res hres
    have hp := h1.perm
    rw [hf, hres, h3] at hp
    have hst : r.stored = [] := by simpa using hp
    have hok : Refill.OK cfg { r with total := r.total + l.length, fetched := r.fetched ++ l, res := l.getLast? } l.dropLast := by
      refine ⟨h1.used, ?_, htot, ?_, ?_⟩
      · show (r.fetched ++ l).Perm (l.getLast?.toList ++ r.stored ++ r.back ++ l.dropLast)
        rw [hf, hst, h3]
        rw [List.perm_iff_count]
        intro a
        conv => lhs; rw [List.nil_append, ← getLast_toList l]
        simp only [List.count_append, List.count_nil]; omega
      · show r.total + l.length ≤ r.target; omega
      · intro h; exact absurd (List.getLast?_eq_none_iff.mp h) e
    have hhand : ∀ a, (pairs r.k l.getLast?.toList).count a + (pairs r.k l.dropLast).count a = (pairs r.k l).count a := by
      intro a
      rw [Nat.add_comm, ← pairs_count_append, getLast_toList]
    have h0 : ∀ a, (St.fetch r).hand.count a = 0 := by
      intro a
      show (pairs r.k r.res.toList).count a = 0
      rw [hres]; rfl
    simp only
    by_cases e2 : l.dropLast = []
    · rw [if_pos e2]
      rw [e2] at hok hhand
      have hh : ∀ a, (pairs r.k l.getLast?.toList).count a = (pairs r.k l).count a := fun a => hhand a
      rcases Refill.next_cases { r with total := r.total + l.length, fetched := r.fetched ++ l, res := l.getLast? } l.length with ⟨e, h⟩ | e
      · rw [e]
        refine k.enter hi h1.used hg (fun _ h => h) rfl (fun a => ?_) ⟨hok, h, h3⟩ rfl (fun _ => ⟨rfl, rfl⟩) rfl
        rw [h0]; exact hh a
      · rw [e]
        refine k.enter hi h1.used hg (fun _ h => h) rfl (fun a => ?_) hok rfl (fun _ => ⟨rfl, rfl⟩) rfl
        rw [h0]; exact hh a
    · rw [if_neg e2]
      refine k.enter hi h1.used hg (fun _ h => h) rfl (fun a => ?_) ⟨hok, e2, ?_, h3⟩ rfl (fun _ => ⟨rfl, rfl⟩) rfl
      · rw [h0]
        show (pairs r.k l.getLast?.toList ++ pairs r.k l.dropLast).count a = _ + 0
        rw [List.count_append]; exact hhand a
      · rw [List.length_dropLast]; omega
  | some o =>
    have hok : Refill.OK cfg { r with total := r.total + l.length, fetched := r.fetched ++ l } l := by
      refine ⟨h1.used, ?_, htot, ?_, ?_⟩
      · rw [List.perm_iff_count]
        intro a
        have := h1.perm.count_eq a
        simp only [List.count_append, List.count_nil] at this ⊢
        omega
      · show r.total + l.length ≤ r.target; omega
      · intro h; rw [hres] at h; cases h
    rw [hres] at hok
    simp only
    refine k.enter hi h1.used hg (fun _ h => h) rfl (fun a => ?_) ⟨hok, e, by omega, h3⟩ rfl (fun _ => ⟨rfl, rfl⟩) rfl
    show (pairs r.k (some o).toList ++ pairs r.k l).count a = (pairs r.k l).count a + (pairs r.k r.res.toList).count a
    rw [hres, List.count_append]; omega

/-! ### Overflow -/

theorem gather_K {w : W} (k : K cfg limit w) {i : Nat} {v : Over} (hi : w.th[i]? = some (.gather v))
    (hr : ∃ t : Slab.Thread, w.s.thr[i]? = some t ∧ t.cpu ≠ none) (ch : Ch) :
    ∃ w' out, stepOver cfg w i ch (.gather v) = some (w', out) ∧ K cfg limit w' := by
  obtain ⟨h1, h2, h3⟩ : v.OK cfg ∧ v.total < v.target ∧ v.batch.length ≤ kMaxObjectsToMove := k.ok i _ hi
  obtain ⟨t, hrun, hfit, hcpu⟩ := k.run hi hr
  have hpc := call_pre k hrun hfit
  have hM : kMaxObjectsToMove = 128 := rfl
  simp only [stepOver]
  rw [if_neg (by omega)]
  by_cases e : v.batch.length < min kMaxObjectsToMove (v.target - v.total)
  · rw [if_pos e]
    refine k.start (st' := .gathering v _) hi hr ⟨t, hrun.thr, hpc, hrun.cpu, h1.used.1, by omega⟩ (fun h => by cases h) rfl rfl rfl
      (fun _ h => by cases h) (fun _ => rfl) ⟨h1, by omega, by omega, by omega⟩ (fun h => by cases h) (fun _ _ => rfl) rfl
  · rw [if_neg e]
    refine ⟨_, _, rfl, k.local (st' := .flush v) hi (fun _ h => h) (fun _ h => by cases h) (.refl _) ⟨h1, ?_, h3⟩ (fun h => by cases h) (fun _ => ⟨rfl, rfl⟩) rfl⟩
    intro hb
    rw [hb] at e
    simp at e
    omega

theorem gathering_K {w : W} (k : K cfg limit w) {i n : Nat} {v : Over} (hi : w.th[i]? = some (.gathering v n))
    (hr : ∃ t : Slab.Thread, w.s.thr[i]? = some t ∧ t.cpu ≠ none) (ch : Ch) (hv : 2 ≤ ch.s.op → Valid cfg.slab.nc ch.s.k) :
    ∃ w' out, stepOver cfg w i ch (.gathering v n) = some (w', out) ∧ K cfg limit w' := by
  obtain ⟨h1, h2, h3, h4⟩ : v.OK cfg ∧ v.total + v.batch.length + n ≤ v.target ∧ v.batch.length + n ≤ kMaxObjectsToMove ∧ 0 < n := k.ok i _ hi
  obtain ⟨t, c, s', out, kd, ret, a, hfit, hcpu⟩ := k.acts hi hr ch.s (fun _ => hv)
  have hfit : w.s.kind t.pc = .popB v.k n := hfit
  have haf := a.after; rw [hfit] at haf
  have hk := Slab.kind_regs w.s t.pc
  rw [hfit] at hk
  simp only [stepOver, W.act, a.step]
  rcases haf with ⟨rfl, rfl⟩ | ⟨l, hn, rfl, rfl⟩
  · exact ⟨_, _, rfl, k.silent hi a rfl (fun c e => by cases e)⟩
  · obtain ⟨x, e1, e3, e4, e5, -⟩ := a.eff
    have hx : x = v.k := by
      have := hk.1
      rw [e1] at this; injection this
    subst hx
    have hok : Over.OK cfg { v with batch := v.batch ++ l, popped := v.popped ++ l } := by
      refine ⟨h1.used, ?_, h1.tot, ?_⟩
      · rw [List.perm_iff_count]
        intro b
        have := h1.perm.count_eq b
        simp only [List.count_append, List.count_cons] at this ⊢
        omega
      · show v.total + (v.batch ++ l).length ≤ v.target
        rw [List.length_append]; omega
    have hh : ∀ b, s'.held.count b + w.user.count b + (pairs v.k v.batch).count b = w.s.held.count b + w.user.count b + (pairs v.k (v.batch ++ l)).count b := by
      intro b
      rw [e4, List.count_append, pairs_count_append]
      simp only [pairs]; omega
    refine ⟨_, _, rfl, ?_⟩
    by_cases e : v.batch ++ l = []
    · simp only [if_pos e]
      refine k.acted (st' := .fdone _) hi a rfl rfl rfl rfl rfl (fun _ h => by cases h) ?_ ⟨hok, e⟩ (fun h => by cases h) (fun c h => bytes_keep e3 e5 h) (fun _ => ⟨rfl, rfl⟩) rfl
      intro b
      have := hh b
      rw [e] at this
      exact this
    · simp only [if_neg e]
      refine k.acted (st' := .flush _) hi a rfl rfl rfl rfl rfl (fun _ h => by cases h) hh ⟨hok, e, ?_⟩ (fun h => by cases h) (fun c h => bytes_keep e3 e5 h) (fun _ => ⟨rfl, rfl⟩) rfl
      show (v.batch ++ l).length ≤ _
      rw [List.length_append]; omega

theorem flush_K {w : W} (k : K cfg limit w) {i : Nat} {v : Over} (hi : w.th[i]? = some (.flush v)) (ch : Ch) :
    ∃ w' out, stepOver cfg w i ch (.flush v) = some (w', out) ∧ K cfg limit w' := by
  obtain ⟨h1, h2, h3⟩ : v.OK cfg ∧ v.batch ≠ [] ∧ v.batch.length ≤ kMaxObjectsToMove := k.ok i _ hi
  have hok : Over.OK cfg { v with total := v.total + v.batch.length, sent := v.sent ++ v.batch, batch := [] } := by
    refine ⟨h1.used, ?_, ?_, ?_⟩
    · have := h1.perm
      simpa using this
    · show v.total + v.batch.length = (v.sent ++ v.batch).length
      rw [List.length_append, h1.tot]
    · exact h1.le
  simp only [stepOver]
  by_cases e : v.batch.length ≠ kMaxObjectsToMove ∨ v.target ≤ v.total + v.batch.length
  · obtain ⟨w', e', hK⟩ := k.release (l := v.batch) (c := v.k)
      (st' := .fdone { v with total := v.total + v.batch.length, sent := v.sent ++ v.batch, batch := [] }) hi h2 h3
      (fun _ h => h) (fun _ h => by cases h) (fun a => rfl) ⟨hok, rfl⟩ (fun h => by cases h) (fun _ => ⟨rfl, rfl⟩) rfl
    simp only [e', Option.map_some, if_pos e]
    exact ⟨_, _, rfl, hK⟩
  · obtain ⟨w', e', hK⟩ := k.release (l := v.batch) (c := v.k)
      (st' := .gather { v with total := v.total + v.batch.length, sent := v.sent ++ v.batch, batch := [] }) hi h2 h3
      (fun _ h => h) (fun _ h => by cases h) (fun a => rfl) ⟨hok, by show v.total + v.batch.length < v.target; omega, Nat.zero_le _⟩ (fun h => by cases h) (fun _ => ⟨rfl, rfl⟩) rfl
    simp only [e', Option.map_some, if_neg e]
    exact ⟨_, _, rfl, hK⟩

theorem fdone_K {w : W} (k : K cfg limit w) {i : Nat} {v : Over} (hi : w.th[i]? = some (.fdone v)) (ch : Ch) :
    ∃ w' out, stepOver cfg w i ch (.fdone v) = some (w', out) ∧ K cfg limit w' :=
  ⟨_, _, rfl, k.local (st' := .idle) hi (fun _ h => h) (fun _ h => by cases h) (.refl _) trivial (fun h => by cases h) (fun _ => ⟨rfl, rfl⟩) rfl⟩

end Verif.CpuCache
