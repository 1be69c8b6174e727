import Verif.TimeSeries.Inv
/-! Properties of the time series (C40) and of what is decided with them. -/
namespace Verif.TimeSeries
variable {T S : Type}

/-! ### The clock -/

/-- C40: the number of the epoch is the time divided by the length of the epoch, for every time a 64-bit clock can show, if
the length in ticks is not a power of two. -/
theorem epoch_exact {d t : Nat} (hd : GoodTicks d) (ht : t < 2 ^ 63) : currentEpoch d t = t / d := currentEpoch_eq hd ht

/-- A finding: if the length of an epoch is a power of two, the constant overflows, and it is always epoch 0. -/
theorem power_of_two_epoch {i t : Nat} (hi : i < 64) (ht : t < 2 ^ 63) : currentEpoch (2 ^ i) t = 0 := by
  have hb : bitWidth (2 ^ i) = i + 1 := by
    unfold bitWidth
    rw [if_neg (by have := Nat.pow_pos (n := i) (show 0 < 2 by decide); omega), Nat.log2_two_pow]
  unfold currentEpoch epochTicksM divPrecision
  rw [hb]
  have e : 2 ^ (63 + (i + 1)) / 2 ^ i = 2 ^ 64 := by
    rw [Nat.pow_div (by omega) (by decide)]
    congr 1; omega
  rw [e, Nat.mod_self, Nat.zero_add, Nat.mod_eq_of_lt (by decide : 1 < 2 ^ 64), Nat.one_mul,
    Nat.mod_eq_of_lt (Nat.lt_trans ht (by decide)), Nat.shiftRight_eq_div_pow]
  apply Nat.div_eq_of_lt
  exact Nat.lt_of_lt_of_le ht (Nat.pow_le_pow_right (by decide) (by omega))

/-- So with a clock of 2^24 ticks a second and epochs of one second, an hour later it is still the same epoch. -/
example : currentEpoch (2 ^ 24) (3600 * 2 ^ 24) = 0 ∧ currentEpoch (2 ^ 24 + 1) (3600 * 2 ^ 24) = 3599 := by decide

/-! ### Windows -/

/-- What the callback sees: for each of the last epochs with reports, what was reported in it. -/
theorem window_spec {K len : Nat} {ops : Ops T S} {s : Tr T} {l : Log S} {t : Nat} (hK : 0 < K) (hl : 0 < len) (hI : Inv K ops s l)
    (hw : ceilDiv t len ≤ K) : ∃ r, iterBackwards K len s (some t) = some r ∧
      (∀ p ∈ r, ∃ e vs, now l < e + ceilDiv t len ∧ p.payload = pay ops vs ∧ ∀ v, v ∈ vs ↔ (e, some v) ∈ l) ∧
      (∀ e v, (e, some v) ∈ l → now l < e + ceilDiv t len →
        ∃ p ∈ r, ∃ vs, p.payload = pay ops vs ∧ ∀ v, v ∈ vs ↔ (e, some v) ∈ l) := by
  obtain ⟨r, h1, h2⟩ := iter_spec hK hl hI (some t)
  rw [filter_window hI.desc hw] at h2
  have huniq : ∀ {e vs}, (e, vs) ∈ groups l → ∀ v, v ∈ vs ↔ (e, some v) ∈ l := by
    intro e vs hm v
    rw [mem_groups hI.desc]
    constructor
    · intro h; exact ⟨vs, hm, h⟩
    · rintro ⟨vs', hm', h⟩
      have : vs = vs' := by
        have hd := hI.desc
        clear h2 h1
        revert hm hm' hd
        generalize groups l = G
        intro hm hm' hd
        induction G with
        | nil => cases hm
        | cons g r ih =>
          rw [List.pairwise_cons] at hd
          rcases List.mem_cons.1 hm with h1 | h1 <;> rcases List.mem_cons.1 hm' with h2 | h2
          · rw [← h1] at h2; cases h2; rfl
          · have := hd.1 _ h2; rw [← h1] at this; simp at this
          · have := hd.1 _ h1; rw [← h2] at this; simp at this
          · exact ih h1 h2 hd.2
      rw [this]; exact h
  refine ⟨r, h1, ?_, ?_⟩
  · intro p hp
    have : p.payload ∈ r.map Entry.payload := List.mem_map_of_mem hp
    rw [h2, List.mem_map] at this
    obtain ⟨⟨e, vs⟩, hx, hpay⟩ := this
    rw [List.mem_filter] at hx
    exact ⟨e, vs, by simpa using hx.2, hpay.symm, huniq hx.1⟩
  · intro e v hev hwin
    obtain ⟨vs, hm, hv⟩ := (mem_groups hI.desc).1 hev
    have : pay ops vs ∈ r.map Entry.payload := by
      rw [h2, List.mem_map]
      exact ⟨(e, vs), List.mem_filter.2 ⟨hm, by simpa using hwin⟩, rfl⟩
    rw [List.mem_map] at this
    obtain ⟨p, hp, hpay⟩ := this
    exact ⟨p, hp, vs, hpay, huniq hm⟩

theorem foldl_max {α : Type} {f : α → Nat} : ∀ (l : List α) (m : Nat), (m ≤ l.foldl (fun m e => max m (f e)) m) ∧
    (∀ x ∈ l, f x ≤ l.foldl (fun m e => max m (f e)) m) ∧
    (l.foldl (fun m e => max m (f e)) m = m ∨ ∃ x ∈ l, l.foldl (fun m e => max m (f e)) m = f x) := by
  intro l
  induction l with
  | nil => intro m; exact ⟨Nat.le_refl _, (by intro x hx; cases hx), .inl rfl⟩
  | cons a l ih =>
    intro m
    obtain ⟨h1, h2, h3⟩ := ih (max m (f a))
    rw [List.foldl_cons]
    refine ⟨Nat.le_trans (Nat.le_max_left _ _) h1, ?_, ?_⟩
    · intro x hx
      rcases List.mem_cons.1 hx with rfl | hx
      · exact Nat.le_trans (Nat.le_max_right _ _) h1
      · exact h2 x hx
    · rcases h3 with h3 | ⟨x, hx, h3⟩
      · rw [h3]
        rcases Nat.le_total m (f a) with h | h
        · exact .inr ⟨a, List.mem_cons_self .., Nat.max_eq_right h⟩
        · exact .inl (Nat.max_eq_left h)
      · exact .inr ⟨x, List.mem_cons_of_mem _ hx, h3⟩

theorem foldl_min {α : Type} {f : α → Nat} : ∀ (l : List α) (m : Nat), (l.foldl (fun m e => min m (f e)) m ≤ m) ∧
    (∀ x ∈ l, l.foldl (fun m e => min m (f e)) m ≤ f x) ∧
    (l.foldl (fun m e => min m (f e)) m = m ∨ ∃ x ∈ l, l.foldl (fun m e => min m (f e)) m = f x) := by
  intro l
  induction l with
  | nil => intro m; exact ⟨Nat.le_refl _, (by intro x hx; cases hx), .inl rfl⟩
  | cons a l ih =>
    intro m
    obtain ⟨h1, h2, h3⟩ := ih (min m (f a))
    rw [List.foldl_cons]
    refine ⟨Nat.le_trans h1 (Nat.min_le_left _ _), ?_, ?_⟩
    · intro x hx
      rcases List.mem_cons.1 hx with rfl | hx
      · exact Nat.le_trans h1 (Nat.min_le_right _ _)
      · exact h2 x hx
    · rcases h3 with h3 | ⟨x, hx, h3⟩
      · rw [h3]
        rcases Nat.le_total m (f a) with h | h
        · exact .inl (Nat.min_eq_left h)
        · exact .inr ⟨a, List.mem_cons_self .., Nat.min_eq_right h⟩
      · exact .inr ⟨x, List.mem_cons_of_mem _ hx, h3⟩

/-! ### `MinMaxTracker` -/

theorem pay_ex : ∀ vs : List Nat, (∀ v ∈ vs, v ≤ (pay exOps vs).mx) ∧ ((pay exOps vs).mx = 0 ∨ (pay exOps vs).mx ∈ vs) ∧
    (∀ v ∈ vs, (pay exOps vs).mn ≤ v) ∧ ((pay exOps vs).mn = kMax ∨ (pay exOps vs).mn ∈ vs) := by
  intro vs
  induction vs with
  | nil => exact ⟨(by intro v h; cases h), .inl rfl, (by intro v h; cases h), .inl rfl⟩
  | cons a l ih =>
    obtain ⟨h1, h2, h3, h4⟩ := ih
    have e1 : (pay exOps (a :: l)).mx = max (pay exOps l).mx a := rfl
    have e2 : (pay exOps (a :: l)).mn = min (pay exOps l).mn a := rfl
    rw [e1, e2]
    refine ⟨?_, ?_, ?_, ?_⟩
    · intro v hv
      rcases List.mem_cons.1 hv with rfl | hv
      · exact Nat.le_max_right _ _
      · exact Nat.le_trans (h1 v hv) (Nat.le_max_left _ _)
    · rcases Nat.le_total (pay exOps l).mx a with h | h
      · rw [Nat.max_eq_right h]; exact .inr (List.mem_cons_self ..)
      · rw [Nat.max_eq_left h]
        rcases h2 with h2 | h2
        · exact .inl h2
        · exact .inr (List.mem_cons_of_mem _ h2)
    · intro v hv
      rcases List.mem_cons.1 hv with rfl | hv
      · exact Nat.min_le_right _ _
      · exact Nat.le_trans (Nat.min_le_left _ _) (h3 v hv)
    · rcases Nat.le_total (pay exOps l).mn a with h | h
      · rw [Nat.min_eq_left h]
        rcases h4 with h4 | h4
        · exact .inl h4
        · exact .inr (List.mem_cons_of_mem _ h4)
      · rw [Nat.min_eq_right h]; exact .inr (List.mem_cons_self ..)

/-- C40: the maximum over an interval no longer than the window is the largest value reported in the epochs of the interval. -/
theorem max_exact {K d len t : Nat} {s : Tr Extrema} {l : Log Nat} (hK : 0 < K) (hd : GoodTicks d) (hl : 0 < len)
    (h : Reach K d exOps s l) (hw : ceilDiv t len ≤ K) :
    ∃ m, maxOverTime K len s (some t) = some m ∧ IsMax (InWindow l (ceilDiv t len)) m := by
  obtain ⟨r, h1, h2, h3⟩ := window_spec hK hl (h.inv hK hd) hw
  unfold maxOverTime
  rw [h1]
  obtain ⟨f1, f2, f3⟩ := foldl_max (f := fun e : Entry Extrema => e.payload.mx) r 0
  refine ⟨_, rfl, ?_, ?_⟩
  · rintro v ⟨e, hev, hwin⟩
    obtain ⟨p, hp, vs, hpay, hvs⟩ := h3 e v hev hwin
    have := (pay_ex vs).1 v ((hvs v).2 hev)
    rw [← hpay] at this
    exact Nat.le_trans this (f2 p hp)
  · have hzero : r.foldl (fun m e => max m e.payload.mx) 0 = 0 → (InWindow l (ceilDiv t len) 0) ∨ ∀ v, ¬ InWindow l (ceilDiv t len) v := by
      intro h0
      by_cases hex : ∃ v, InWindow l (ceilDiv t len) v
      · obtain ⟨v, e, hev, hwin⟩ := hex
        obtain ⟨p, hp, vs, hpay, hvs⟩ := h3 e v hev hwin
        have := (pay_ex vs).1 v ((hvs v).2 hev)
        rw [← hpay] at this
        have hle := f2 p hp
        rw [h0] at hle
        have hv0 : v = 0 := by omega
        subst hv0
        exact .inl ⟨e, hev, hwin⟩
      · exact .inr fun v hv => hex ⟨v, hv⟩
    dsimp only
    rcases f3 with f3 | ⟨p, hp, f3⟩
    · rw [f3]
      rcases hzero f3 with h | h
      · exact .inl h
      · exact .inr ⟨h, rfl⟩
    · obtain ⟨e, vs, hwin, hpay, hvs⟩ := h2 p hp
      rcases (pay_ex vs).2.1 with h | h
      · rw [hpay, h] at f3
        rw [f3]
        rcases hzero f3 with h | h
        · exact .inl h
        · exact .inr ⟨h, rfl⟩
      · rw [← hpay] at h
        rw [f3]
        exact .inl ⟨e, (hvs _).1 h, hwin⟩

/-- C40: and the minimum is the smallest. -/
theorem min_exact {K d len t : Nat} {s : Tr Extrema} {l : Log Nat} (hK : 0 < K) (hd : GoodTicks d) (hl : 0 < len)
    (h : Reach K d exOps s l) (hw : ceilDiv t len ≤ K) (hv : ∀ e v, (e, some v) ∈ l → v < 2 ^ 64 - 1) :
    ∃ m, minOverTime K len s (some t) = some m ∧ IsMin (InWindow l (ceilDiv t len)) m := by
  obtain ⟨r, h1, h2, h3⟩ := window_spec hK hl (h.inv hK hd) hw
  unfold minOverTime
  rw [h1]
  obtain ⟨f1, f2, f3⟩ := foldl_min (f := fun e : Entry Extrema => e.payload.mn) r kMax
  refine ⟨_, rfl, ?_⟩
  dsimp only
  have hle : ∀ v, InWindow l (ceilDiv t len) v → r.foldl (fun m e => min m e.payload.mn) kMax ≤ v := by
    rintro v ⟨e, hev, hwin⟩
    obtain ⟨p, hp, vs, hpay, hvs⟩ := h3 e v hev hwin
    have := (pay_ex vs).2.2.1 v ((hvs v).2 hev)
    rw [← hpay] at this
    exact Nat.le_trans (f2 p hp) this
  split
  · rename_i hm
    have hnone : ∀ v, ¬ InWindow l (ceilDiv t len) v := by
      intro v hv'
      have h4 := hle v hv'
      obtain ⟨e, hev, -⟩ := hv'
      have h5 := hv e v hev
      rw [hm] at h4
      unfold kMax at h4
      omega
    exact ⟨fun v h => absurd h (hnone v), .inr ⟨hnone, rfl⟩⟩
  · rename_i hm
    refine ⟨hle, ?_⟩
    rcases f3 with f3 | ⟨p, hp, f3⟩
    · exact absurd f3 hm
    · obtain ⟨e, vs, hwin, hpay, hvs⟩ := h2 p hp
      rcases (pay_ex vs).2.2.2 with h | h
      · rw [hpay, h] at f3; exact absurd f3 hm
      · rw [← hpay] at h
        rw [f3]
        exact .inl ⟨e, (hvs _).1 h, hwin⟩

theorem now_push {l : Log S} {e : Nat} {v : Option S} : now (push l (e, v)) = e := by
  unfold push
  cases l with
  | nil => rfl
  | cons x l => dsimp only; split <;> rfl

theorem latest_in_window {l : Log S} {e E : Nat} {v : S} (hE : 0 < E) : InEpoch (push l (e, some v)) E e v := by
  refine ⟨?_, by rw [now_push]; omega⟩
  unfold push
  cases l with
  | nil => simp
  | cons x l => dsimp only; split <;> simp

/-- C40: right after a report, the value reported lies between the minimum and the maximum over any interval that is not
empty: the differences the hugepage cache computes do not underflow (huge_cache.cc:152-198). -/
theorem extremes_bracket_latest {K d len t v : Nat} {s s' : Tr Extrema} {l : Log Nat} {tick : Nat} {b : Bool} (hK : 0 < K)
    (hd : GoodTicks d) (hl : 0 < len) (h : Reach K d exOps s l) (ht : 0 < t) (hw : ceilDiv t len ≤ K) (htick : tick < 2 ^ 63)
    (hv : ∀ e v, (e, some v) ∈ l → v < 2 ^ 64 - 1) (hv2 : v < 2 ^ 64 - 1)
    (hr : report K exOps s (currentEpoch d tick) v = some (b, s')) :
    ∃ lo hi, minOverTime K len s' (some t) = some lo ∧ maxOverTime K len s' (some t) = some hi ∧ lo ≤ v ∧ v ≤ hi := by
  have hR := h.report htick hr
  have hc0 : 0 < ceilDiv t len := by unfold ceilDiv; exact Nat.div_pos (by omega) hl
  have hlat := latest_in_window (l := l) (e := tick / d) (v := v) hc0
  have hin : InWindow (push l (tick / d, some v)) (ceilDiv t len) v := ⟨_, hlat.1, hlat.2⟩
  have hv3 : ∀ e v', (e, some v') ∈ push l (tick / d, some v) → v' < 2 ^ 64 - 1 := by
    intro e v' hm
    unfold push at hm
    cases l with
    | nil => simp at hm; omega
    | cons x l =>
      dsimp only at hm
      split at hm
      · simp at hm; omega
      · rcases List.mem_cons.1 hm with h | h
        · simp at h; omega
        · exact hv e v' h
  obtain ⟨lo, h1, h2⟩ := min_exact hK hd hl hR hw hv3
  obtain ⟨hi, h3, h4⟩ := max_exact hK hd hl hR hw
  exact ⟨lo, hi, h1, h3, h2.1 v hin, h4.1 v hin⟩

/-- No call aborts. -/
theorem reports_succeed {K d : Nat} {ops : Ops T S} {s : Tr T} {l : Log S} (hK : 0 < K) (hd : GoodTicks d) (h : Reach K d ops s l)
    (e : Nat) (v : S) : (report K ops s e v).isSome = true ∧ (updateClock K ops s e).isSome = true := by
  obtain ⟨s1, h1, -⟩ := report_inv hK (h.inv hK hd) e v
  obtain ⟨s2, h2, -⟩ := updateClock_inv hK (h.inv hK hd) e
  rw [h1, h2]
  exact ⟨rfl, rfl⟩

/-! ### `SubreleaseStatsTracker` -/

/-- What the filler reports: numbers of pages that do not add up to 2^64 - 1. -/
def Stats.OK (v : Stats) : Prop := v.free + v.unmapped < 2 ^ 64 - 1

theorem pay_s : ∀ vs : List Stats, (∀ v ∈ vs, v.OK) →
    (vs = [] → (pay sOps vs).empty = true) ∧
    (vs ≠ [] → (pay sOps vs).empty = false ∧ (pay sOps vs).atMin ∈ vs ∧ (pay sOps vs).atMax ∈ vs ∧
      (∀ v ∈ vs, (pay sOps vs).atMin.num ≤ v.num ∧ v.num ≤ (pay sOps vs).atMax.num) ∧
      (∀ v ∈ vs, (pay sOps vs).minFree ≤ v.free + v.unmapped ∧ (pay sOps vs).minBacked ≤ v.free) ∧
      (∃ v ∈ vs, (pay sOps vs).minFree = v.free + v.unmapped) ∧ (∃ v ∈ vs, (pay sOps vs).minBacked = v.free)) := by
  intro vs
  induction vs with
  | nil => intro _; exact ⟨(fun _ => by decide +kernel), (fun h => absurd rfl h)⟩
  | cons a l ih =>
    intro hok
    obtain ⟨h1, h2⟩ := ih (fun v hv => hok v (List.mem_cons_of_mem _ hv))
    have ha := hok a (List.mem_cons_self ..)
    unfold Stats.OK at ha
    refine ⟨(fun h => by cases h), fun _ => ?_⟩
    have e0 : pay sOps (a :: l) = (pay sOps l).report a := rfl
    rw [e0]
    by_cases hl : l = []
    · subst hl
      have e1 : (pay sOps ([] : List Stats)) = SEntry.nil := rfl
      rw [e1]
      have hem : SEntry.nil.empty = true := by decide +kernel
      unfold SEntry.report
      rw [hem]
      simp only [if_true, Nat.lt_irrefl, if_false, List.mem_cons, List.not_mem_nil, or_false, forall_eq, true_and, exists_eq_left,
        Nat.le_refl]
      have e2 : SEntry.nil.minFree = 2 ^ 64 - 1 := rfl
      have e3 : SEntry.nil.minBacked = 2 ^ 64 - 1 := rfl
      rw [e2, e3]
      refine ⟨?_, ⟨Nat.min_le_right _ _, Nat.min_le_right _ _⟩, Nat.min_eq_right (by omega), Nat.min_eq_right (by omega)⟩
      unfold SEntry.empty kMax
      rw [decide_eq_false_iff_not]
      dsimp only
      omega
    · obtain ⟨g1, g2, g3, g4, g5, ⟨x, hx, g6⟩, ⟨y, hy, g7⟩⟩ := h2 hl
      generalize pay sOps l = P at *
      unfold SEntry.report
      rw [g1]
      simp only [Bool.false_eq_true, if_false]
      have hP : P.minFree < 2 ^ 64 - 1 := by
        have := hok x (List.mem_cons_of_mem _ hx)
        unfold Stats.OK at this
        omega
      refine ⟨?_, ?_, ?_, ?_, ?_, ?_, ?_⟩
      · unfold SEntry.empty kMax
        rw [decide_eq_false_iff_not]
        dsimp only
        omega
      · split
        · exact List.mem_cons_self ..
        · exact List.mem_cons_of_mem _ g2
      · split
        · exact List.mem_cons_self ..
        · exact List.mem_cons_of_mem _ g3
      · intro v hv
        rcases List.mem_cons.1 hv with rfl | hv
        · constructor
          · split <;> omega
          · split <;> omega
        · have := g4 v hv
          constructor
          · split <;> omega
          · split <;> omega
      · intro v hv
        rcases List.mem_cons.1 hv with rfl | hv
        · exact ⟨Nat.min_le_right _ _, Nat.min_le_right _ _⟩
        · have := g5 v hv
          exact ⟨Nat.le_trans (Nat.min_le_left _ _) this.1, Nat.le_trans (Nat.min_le_left _ _) this.2⟩
      · rcases Nat.le_total P.minFree (a.free + a.unmapped) with h | h
        · exact ⟨x, List.mem_cons_of_mem _ hx, by rw [Nat.min_eq_left h]; exact g6⟩
        · exact ⟨a, List.mem_cons_self .., Nat.min_eq_right h⟩
      · rcases Nat.le_total P.minBacked a.free with h | h
        · exact ⟨y, List.mem_cons_of_mem _ hy, by rw [Nat.min_eq_left h]; exact g7⟩
        · exact ⟨a, List.mem_cons_self .., Nat.min_eq_right h⟩

/-- The callback of the demand functions takes a maximum over the epochs with reports. -/
theorem foldl_cond {f : SEntry → Nat} (r : List (Entry SEntry)) :
    r.foldl (fun m e => if !e.payload.empty && decide (m < f e.payload) then f e.payload else m) 0 =
      r.foldl (fun m e => max m (if e.payload.empty then 0 else f e.payload)) 0 := by
  have : ∀ m, r.foldl (fun m e => if !e.payload.empty && decide (m < f e.payload) then f e.payload else m) m =
      r.foldl (fun m e => max m (if e.payload.empty then 0 else f e.payload)) m := by
    induction r with
    | nil => intro m; rfl
    | cons a r ih =>
      intro m
      rw [List.foldl_cons, List.foldl_cons, ih]
      congr 1
      cases a.payload.empty
      · simp only [Bool.not_false, Bool.true_and, decide_eq_true_eq, Bool.false_eq_true, if_false]
        split <;> omega
      · simp
  exact this 0

/-- The epochs with reports that the callbacks see. -/
theorem stats_spec {K d len t : Nat} {s : Tr SEntry} {l : Log Stats} (hK : 0 < K) (hd : GoodTicks d) (hl : 0 < len)
    (h : Reach K d sOps s l) (hok : ∀ e v, (e, some v) ∈ l → v.OK) (hw : ceilDiv t len ≤ K) :
    ∃ r, iterBackwards K len s (some t) = some r ∧
      (∀ p ∈ r, p.payload.empty = false → ∃ e vs, vs ≠ [] ∧ now l < e + ceilDiv t len ∧ p.payload = pay sOps vs ∧
        (∀ v ∈ vs, v.OK) ∧ ∀ v, v ∈ vs ↔ (e, some v) ∈ l) ∧
      (∀ e v, (e, some v) ∈ l → now l < e + ceilDiv t len →
        ∃ p ∈ r, p.payload.empty = false ∧ ∃ vs, vs ≠ [] ∧ p.payload = pay sOps vs ∧ (∀ v ∈ vs, v.OK) ∧ ∀ v, v ∈ vs ↔ (e, some v) ∈ l) := by
  obtain ⟨r, h1, h2, h3⟩ := window_spec hK hl (h.inv hK hd) hw
  refine ⟨r, h1, ?_, ?_⟩
  · intro p hp he
    obtain ⟨e, vs, hwin, hpay, hvs⟩ := h2 p hp
    have hok' : ∀ v ∈ vs, v.OK := fun v hv => hok e v ((hvs v).1 hv)
    refine ⟨e, vs, ?_, hwin, hpay, hok', hvs⟩
    intro h0
    rw [hpay, (pay_s vs hok').1 h0] at he
    cases he
  · intro e v hev hwin
    obtain ⟨p, hp, vs, hpay, hvs⟩ := h3 e v hev hwin
    have hok' : ∀ v ∈ vs, v.OK := fun v hv => hok e v ((hvs v).1 hv)
    have hne : vs ≠ [] := by
      intro h0
      have := (hvs v).2 hev
      rw [h0] at this
      cases this
    refine ⟨p, hp, ?_, vs, hne, hpay, hok', hvs⟩
    rw [hpay]
    exact ((pay_s vs hok').2 hne).1

/-- A maximum over the epochs with reports of the interval. -/
theorem fold_spec {K d len t : Nat} {s : Tr SEntry} {l : Log Stats} (hK : 0 < K) (hd : GoodTicks d) (hl : 0 < len)
    (h : Reach K d sOps s l) (hok : ∀ e v, (e, some v) ∈ l → v.OK) (hw : ceilDiv t len ≤ K) (f : SEntry → Nat) (P : Nat → Nat → Prop)
    (hf : ∀ e vs, now l < e + ceilDiv t len → vs ≠ [] → (∀ v ∈ vs, v.OK) → (∀ v, v ∈ vs ↔ (e, some v) ∈ l) →
      P e (f (pay sOps vs)) ∧ ∀ x, P e x → x ≤ f (pay sOps vs))
    (hP : ∀ e x, P e x → ∃ v, (e, some v) ∈ l ∧ now l < e + ceilDiv t len) :
    ∃ r, iterBackwards K len s (some t) = some r ∧
      IsMax (fun x => ∃ e, P e x)
        (r.foldl (fun m e => if !e.payload.empty && decide (m < f e.payload) then f e.payload else m) 0) := by
  obtain ⟨r, h1, h2, h3⟩ := stats_spec hK hd hl h hok hw
  refine ⟨r, h1, ?_⟩
  rw [foldl_cond]
  obtain ⟨f1, f2, f3⟩ := foldl_max (f := fun e : Entry SEntry => if e.payload.empty then 0 else f e.payload) r 0
  have hle : ∀ x, (∃ e, P e x) → x ≤ r.foldl (fun m e => max m (if e.payload.empty then 0 else f e.payload)) 0 := by
    rintro x ⟨e, hx⟩
    obtain ⟨v, hev, hwin⟩ := hP e x hx
    obtain ⟨p, hp, hem, vs, hne, hpay, hok', hvs⟩ := h3 e v hev hwin
    have h4 := (hf e vs hwin hne hok' hvs).2 x hx
    have h5 := f2 p hp
    simp only [hem, Bool.false_eq_true, if_false] at h5
    rw [← hpay] at h4
    exact Nat.le_trans h4 h5
  refine ⟨hle, ?_⟩
  have hzero : r.foldl (fun m e => max m (if e.payload.empty then 0 else f e.payload)) 0 = 0 →
      (∃ e, P e 0) ∨ ∀ x, ¬ ∃ e, P e x := by
    intro h0
    by_cases hex : ∃ x e, P e x
    · obtain ⟨x, e, hx⟩ := hex
      have := hle x ⟨e, hx⟩
      rw [h0] at this
      have hx0 : x = 0 := by omega
      subst hx0
      exact .inl ⟨e, hx⟩
    · exact .inr fun x hx => hex ⟨x, hx⟩
  rcases f3 with f3 | ⟨p, hp, f3⟩
  · rw [f3]
    rcases hzero f3 with h | h
    · exact .inl h
    · exact .inr ⟨h, rfl⟩
  · cases hem : p.payload.empty
    · simp only [hem, Bool.false_eq_true, if_false] at f3
      obtain ⟨e, vs, hne, hwin, hpay, hok', hvs⟩ := h2 p hp hem
      left
      rw [f3, hpay]
      exact ⟨e, (hf e vs hwin hne hok' hvs).1⟩
    · simp only [hem, if_true] at f3
      rw [f3]
      rcases hzero f3 with h | h
      · exact .inl h
      · exact .inr ⟨h, rfl⟩

/-- C40: the recent peak is the largest number of used pages reported in the epochs of the interval. -/
theorem peak_exact {K d len t : Nat} {s : Tr SEntry} {l : Log Stats} (hK : 0 < K) (hd : GoodTicks d) (hl : 0 < len)
    (h : Reach K d sOps s l) (hok : ∀ e v, (e, some v) ∈ l → v.OK) (hw : ceilDiv t len ≤ K) :
    ∃ m, demandPeak K len s (some t) = some m ∧ IsMax (fun x => ∃ v, InWindow l (ceilDiv t len) v ∧ x = v.num) m := by
  obtain ⟨r, h1, h2⟩ := fold_spec hK hd hl h hok hw (fun p => p.atMax.num) (fun e x => ∃ v, InEpoch l (ceilDiv t len) e v ∧ x = v.num)
    (by
      intro e vs hwin hne hok' hvs
      obtain ⟨-, -, g3, g4, -⟩ := (pay_s vs hok').2 hne
      refine ⟨⟨_, ⟨(hvs _).1 g3, hwin⟩, rfl⟩, ?_⟩
      rintro x ⟨v, hv, rfl⟩
      exact (g4 v ((hvs v).2 hv.1)).2)
    (by rintro e x ⟨v, hv, -⟩; exact ⟨v, hv.1, hv.2⟩)
  unfold demandPeak
  rw [h1]
  refine ⟨_, rfl, ?_⟩
  have e : (fun x => ∃ v, InWindow l (ceilDiv t len) v ∧ x = v.num) = (fun x => ∃ e v, InEpoch l (ceilDiv t len) e v ∧ x = v.num) := by
    funext x
    apply propext
    constructor
    · rintro ⟨v, ⟨e, a, b⟩, hx⟩; exact ⟨e, v, ⟨a, b⟩, hx⟩
    · rintro ⟨e, v, ⟨a, b⟩, hx⟩; exact ⟨v, ⟨e, a, b⟩, hx⟩
  rw [e]
  exact h2

/-- C40: the demand trend is the sum of the largest fluctuation of the number of used pages within an epoch of the short
interval, and the largest minimum of an epoch of the long interval; no difference underflows. -/
theorem trend_exact {K d len w short long : Nat} {s : Tr SEntry} {l : Log Stats} (hK : 0 < K) (hd : GoodTicks d) (hl : 0 < len)
    (h : Reach K d sOps s l) (hok : ∀ e v, (e, some v) ∈ l → v.OK) (hw : ceilDiv w len ≤ K) (hsl : long = 0 ∨ short ≤ long) :
    ∃ a b, demandTrend K len w s short long = some (a + b) ∧
      IsMax (fun x => ∃ e u v, InEpoch l (ceilDiv (min short w) len) e u ∧ InEpoch l (ceilDiv (min short w) len) e v ∧
        x = u.num - v.num) a ∧
      IsMax (fun x => ∃ e v, InEpoch l (ceilDiv (min long w) len) e v ∧
        (∀ u, InEpoch l (ceilDiv (min long w) len) e u → v.num ≤ u.num) ∧ x = v.num) b := by
  have hmono : ∀ x, ceilDiv (min x w) len ≤ K := by
    intro x
    refine Nat.le_trans ?_ hw
    unfold ceilDiv
    exact Nat.div_le_div_right (by omega)
  obtain ⟨r1, a1, a2⟩ := fold_spec hK hd hl h hok (hmono short) (fun p => p.atMax.num - p.atMin.num)
    (fun e x => ∃ u v, InEpoch l (ceilDiv (min short w) len) e u ∧ InEpoch l (ceilDiv (min short w) len) e v ∧ x = u.num - v.num)
    (by
      intro e vs hwin hne hok' hvs
      obtain ⟨-, g2, g3, g4, -⟩ := (pay_s vs hok').2 hne
      refine ⟨⟨_, _, ⟨(hvs _).1 g3, hwin⟩, ⟨(hvs _).1 g2, hwin⟩, rfl⟩, ?_⟩
      rintro x ⟨u, v, hu, hv, rfl⟩
      have h1 := (g4 u ((hvs u).2 hu.1)).2
      have h2 := (g4 v ((hvs v).2 hv.1)).1
      omega)
    (by rintro e x ⟨u, v, hu, -⟩; exact ⟨u, hu.1, hu.2⟩)
  obtain ⟨r2, b1, b2⟩ := fold_spec hK hd hl h hok (hmono long) (fun p => p.atMin.num)
    (fun e x => ∃ v, InEpoch l (ceilDiv (min long w) len) e v ∧ (∀ u, InEpoch l (ceilDiv (min long w) len) e u → v.num ≤ u.num) ∧ x = v.num)
    (by
      intro e vs hwin hne hok' hvs
      obtain ⟨-, g2, g3, g4, -⟩ := (pay_s vs hok').2 hne
      refine ⟨⟨_, ⟨(hvs _).1 g2, hwin⟩, ?_, rfl⟩, ?_⟩
      · intro u hu; exact (g4 u ((hvs u).2 hu.1)).1
      · rintro x ⟨v, hv, hmin, rfl⟩
        exact hmin _ ⟨(hvs _).1 g2, hwin⟩)
    (by rintro e x ⟨v, hv, -⟩; exact ⟨v, hv.1, hv.2⟩)
  refine ⟨_, _, ?_, a2, b2⟩
  have hshort : (if short ≠ 0 ∧ long ≠ 0 then min short long else short) = short := by
    split
    · omega
    · rfl
  unfold demandTrend
  simp only [hshort]
  rw [a1, b1]
  dsimp only
  rw [if_pos]
  rw [List.all_eq_true]
  intro p hp
  obtain ⟨r, h1, h2, -⟩ := stats_spec hK hd hl h hok (hmono short)
  rw [a1] at h1
  cases h1
  cases hem : p.payload.empty
  · obtain ⟨e, vs, hne, hwin, hpay, hok', hvs⟩ := h2 p hp hem
    obtain ⟨-, g2, g3, g4, -⟩ := (pay_s vs hok').2 hne
    rw [hpay]
    simp only [Bool.false_or, decide_eq_true_eq]
    exact (g4 _ g3).1
  · rfl

/-- A short interval longer than the long one is cut to it. -/
theorem trend_clamped {K len w short long : Nat} {s : Tr SEntry} (hs : short ≠ 0) (hl : long ≠ 0) (h : long < short) :
    demandTrend K len w s short long = demandTrend K len w s long long := by
  have e : min short long = long := by omega
  unfold demandTrend
  rw [if_pos ⟨hs, hl⟩, e, if_pos ⟨hl, hl⟩, Nat.min_self]

/-- C40: the recent demand is the trend, capped by the peak over the interval for the cap. -/
theorem demand_exact {K d len w cap short long : Nat} {s : Tr SEntry} {l : Log Stats} (hK : 0 < K) (hd : GoodTicks d) (hl : 0 < len)
    (h : Reach K d sOps s l) (hok : ∀ e v, (e, some v) ∈ l → v.OK) (hw : ceilDiv w len ≤ K) (hcap : ceilDiv cap len ≤ K)
    (hsl : long = 0 ∨ short ≤ long) :
    ∃ a b p, recentDemand K len w cap s short long = some (min p (a + b)) ∧
      IsMax (fun x => ∃ e u v, InEpoch l (ceilDiv (min short w) len) e u ∧ InEpoch l (ceilDiv (min short w) len) e v ∧
        x = u.num - v.num) a ∧
      IsMax (fun x => ∃ e v, InEpoch l (ceilDiv (min long w) len) e v ∧
        (∀ u, InEpoch l (ceilDiv (min long w) len) e u → v.num ≤ u.num) ∧ x = v.num) b ∧
      IsMax (fun x => ∃ v, InWindow l (ceilDiv cap len) v ∧ x = v.num) p := by
  obtain ⟨a, b, h1, h2, h3⟩ := trend_exact hK hd hl h hok hw hsl
  obtain ⟨p, h4, h5⟩ := peak_exact hK hd hl h hok hcap
  refine ⟨a, b, p, ?_, h2, h3, h5⟩
  unfold recentDemand
  rw [h1, h4]

/-- C40: the smallest numbers of free pages, and of free pages that are backed, are those of the interval. -/
theorem min_free_exact {K d len t : Nat} {s : Tr SEntry} {l : Log Stats} (hK : 0 < K) (hd : GoodTicks d) (hl : 0 < len)
    (h : Reach K d sOps s l) (hok : ∀ e v, (e, some v) ∈ l → v.OK) (hw : ceilDiv t len ≤ K) :
    ∃ a b, minFreePages K len s t = some (a, b) ∧
      IsMin (fun x => ∃ v, InWindow l (ceilDiv t len) v ∧ x = v.free + v.unmapped) a ∧
      IsMin (fun x => ∃ v, InWindow l (ceilDiv t len) v ∧ x = v.free) b := by
  obtain ⟨r, h1, h2, h3⟩ := stats_spec hK hd hl h hok hw
  have hfold : ∀ (f : SEntry → Nat), r.foldl (fun m e => if e.payload.empty then m else min m (f e.payload)) kMax =
      r.foldl (fun m e => min m (if e.payload.empty then kMax else f e.payload)) kMax := by
    intro f
    have : ∀ (q : List (Entry SEntry)) m, m ≤ kMax → q.foldl (fun m e => if e.payload.empty then m else min m (f e.payload)) m =
      q.foldl (fun m e => min m (if e.payload.empty then kMax else f e.payload)) m := by
      intro q
      induction q with
      | nil => intro m _; rfl
      | cons a q ih =>
        intro m hm
        rw [List.foldl_cons, List.foldl_cons]
        cases a.payload.empty
        · simp only [Bool.false_eq_true, if_false]
          exact ih _ (Nat.le_trans (Nat.min_le_left _ _) hm)
        · simp only [if_true]
          rw [Nat.min_eq_left hm]
          exact ih _ hm
    exact this r _ (Nat.le_refl _)
  have key : ∀ (f : SEntry → Nat) (g : Stats → Nat), (∀ v : Stats, v.OK → g v < kMax) →
      (∀ vs, vs ≠ [] → (∀ v ∈ vs, v.OK) → (∀ v ∈ vs, f (pay sOps vs) ≤ g v) ∧ ∃ v ∈ vs, f (pay sOps vs) = g v) →
      IsMin (fun x => ∃ v, InWindow l (ceilDiv t len) v ∧ x = g v)
        (if r.foldl (fun m e => if e.payload.empty then m else min m (f e.payload)) kMax = kMax then 0
          else r.foldl (fun m e => if e.payload.empty then m else min m (f e.payload)) kMax) := by
    intro f g hg hfg
    rw [hfold f]
    obtain ⟨f1, f2, f3⟩ := foldl_min (f := fun e : Entry SEntry => if e.payload.empty then kMax else f e.payload) r kMax
    have hle : ∀ v, InWindow l (ceilDiv t len) v → r.foldl (fun m e => min m (if e.payload.empty then kMax else f e.payload)) kMax ≤ g v := by
      rintro v ⟨e, hev, hwin⟩
      obtain ⟨p, hp, hem, vs, hne, hpay, hok', hvs⟩ := h3 e v hev hwin
      have h4 := (hfg vs hne hok').1 v ((hvs v).2 hev)
      have h5 := f2 p hp
      simp only [hem, Bool.false_eq_true, if_false] at h5
      rw [← hpay] at h4
      exact Nat.le_trans h5 h4
    split
    · rename_i hm
      have hnone : ∀ v, ¬ InWindow l (ceilDiv t len) v := by
        intro v hv
        have h4 := hle v hv
        obtain ⟨e, hev, -⟩ := hv
        have h5 := hg v (hok e v hev)
        omega
      exact ⟨fun x ⟨v, hv, _⟩ => absurd hv (hnone v), .inr ⟨fun x ⟨v, hv, _⟩ => hnone v hv, rfl⟩⟩
    · rename_i hm
      refine ⟨(by rintro x ⟨v, hv, rfl⟩; exact hle v hv), .inl ?_⟩
      rcases f3 with f3 | ⟨p, hp, f3⟩
      · exact absurd f3 hm
      · cases hem : p.payload.empty
        · simp only [hem, Bool.false_eq_true, if_false] at f3
          obtain ⟨e, vs, hne, hwin, hpay, hok', hvs⟩ := h2 p hp hem
          obtain ⟨v, hv, h6⟩ := (hfg vs hne hok').2
          exact ⟨v, ⟨e, (hvs v).1 hv, hwin⟩, by rw [f3, hpay]; exact h6⟩
        · simp only [hem, if_true] at f3
          exact absurd f3 hm
  unfold minFreePages
  rw [h1]
  refine ⟨_, _, rfl, key (fun p => p.minFree) (fun v => v.free + v.unmapped) ?_ ?_, key (fun p => p.minBacked) (fun v => v.free) ?_ ?_⟩
  · intro v hv; exact hv
  · intro vs hne hok'
    obtain ⟨-, -, -, -, g5, g6, -⟩ := (pay_s vs hok').2 hne
    exact ⟨fun v hv => (g5 v hv).1, g6⟩
  · intro v hv; unfold Stats.OK at hv; unfold kMax; omega
  · intro vs hne hok'
    obtain ⟨-, -, -, -, g5, -, g7⟩ := (pay_s vs hok').2 hne
    exact ⟨fun v hv => (g5 v hv).2, g7⟩

/-! ### The decision not to release -/

/-- The demand requirement is at least the number of pages used at the last report, for both ways of computing it. -/
theorem requirement_covers_usage {K d len w cap tick t short long : Nat} {s s' : Tr SEntry} {l : Log Stats} {v : Stats} {b : Bool}
    (hK : 0 < K) (hd : GoodTicks d) (hl : 0 < len) (h : Reach K d sOps s l) (hok : ∀ e v, (e, some v) ∈ l → v.OK) (hv : v.OK)
    (hw : ceilDiv w len ≤ K) (hcap : ceilDiv cap len ≤ K) (hw0 : 0 < w) (hcap0 : 0 < cap) (htick : tick < 2 ^ 63)
    (hr : report K sOps s (currentEpoch d tick) v = some (b, s')) :
    (0 < t → ∃ m, recentPeak K len w s' t = some m ∧ v.num ≤ m) ∧
    (0 < short → short ≤ long → ∃ m, recentDemand K len w cap s' short long = some m ∧ v.num ≤ m) := by
  have hR := h.report htick hr
  have hok2 : ∀ e v', (e, some v') ∈ push l (tick / d, some v) → v'.OK := by
    intro e v' hm
    unfold push at hm
    cases l with
    | nil => simp at hm; rw [hm.2]; exact hv
    | cons x l =>
      dsimp only at hm
      split at hm
      · simp at hm; rw [hm.2]; exact hv
      · rcases List.mem_cons.1 hm with h | h
        · simp at h; rw [h.2]; exact hv
        · exact hok e v' h
  have hpos : ∀ x, 0 < x → 0 < ceilDiv x len := by
    intro x hx; unfold ceilDiv; exact Nat.div_pos (by omega) hl
  have hmono : ∀ x, ceilDiv (min x w) len ≤ K := by
    intro x
    refine Nat.le_trans ?_ hw
    unfold ceilDiv
    exact Nat.div_le_div_right (by omega)
  have hin : ∀ E, 0 < E → InEpoch (push l (tick / d, some v)) E (tick / d) v := fun E hE => latest_in_window hE
  constructor
  · intro ht
    obtain ⟨m, h1, h2⟩ := peak_exact hK hd hl hR hok2 (hmono t)
    have := hin _ (hpos (min t w) (by omega))
    exact ⟨m, h1, h2.1 _ ⟨v, ⟨_, this.1, this.2⟩, rfl⟩⟩
  · intro hs hsl
    obtain ⟨x, y, h1, h2, h3⟩ := trend_exact hK hd hl hR hok2 hw (.inr hsl)
    obtain ⟨m, h4, h5⟩ := peak_exact hK hd hl hR hok2 hcap
    unfold recentDemand
    rw [h1, h4]
    refine ⟨_, rfl, ?_⟩
    have i1 := hin _ (hpos (min short w) (by omega))
    have i2 := hin _ (hpos (min long w) (by omega))
    have i3 := hin _ (hpos cap hcap0)
    have hm : v.num ≤ m := h5.1 _ ⟨v, ⟨_, i3.1, i3.2⟩, rfl⟩
    have hxy : v.num ≤ x + y := by
      -- a report of the current epoch with the fewest pages
      have : ∀ (P : Stats → Prop), (∃ v, P v) → ∃ u, P u ∧ ∀ v, P v → u.num ≤ v.num := by
        intro P ⟨v, hv⟩
        have : ∀ n, ∀ v, P v → v.num = n → ∃ u, P u ∧ ∀ v, P v → u.num ≤ v.num := by
          intro n
          induction n using Nat.strongRecOn with
          | ind n ih =>
            intro v hv hn
            by_cases hex : ∃ u, P u ∧ u.num < n
            · obtain ⟨u, hu, hlt⟩ := hex
              exact ih _ hlt u hu rfl
            · refine ⟨v, hv, fun u hu => ?_⟩
              rcases Nat.lt_or_ge u.num v.num with h | h
              · exact absurd ⟨u, hu, by omega⟩ hex
              · exact h
        exact this _ v hv rfl
      obtain ⟨u, hu, hmin⟩ := this (fun u => (tick / d, some u) ∈ push l (tick / d, some v)) ⟨v, i1.1⟩
      have hy : u.num ≤ y := h3.1 _ ⟨tick / d, u, ⟨hu, i2.2⟩, fun z hz => hmin z hz.1, rfl⟩
      have hx : v.num - u.num ≤ x := h2.1 _ ⟨tick / d, v, u, i1, ⟨hu, i1.2⟩, rfl⟩
      omega
    omega

/-- C40: the decision never aborts when more should be released than was; the new target is at most the old one, and as large as
possible if what stays mapped (used and free pages, less those released from now on) is to cover the requirement; if the
requirement covers the used pages, no more than the free pages are to be released; and no more pages are reported as skipped than
are free, and than the target was reduced by. -/
theorem decision_exact {used free desired released required : Nat} (h : released < desired) :
    ∃ target sk, desiredPages used free desired released required = some (target, sk) ∧
      released ≤ target ∧ target ≤ desired ∧
      (required = 0 → target = desired) ∧
      (required ≠ 0 → (target - released) + min required (used + free) ≤ used + free) ∧
      (required ≠ 0 → target = desired ∨ (target - released) + min required (used + free) = used + free) ∧
      (used ≤ required → required ≠ 0 → target - released ≤ free) ∧
      (∀ n p, sk = some (n, p) → 0 < n ∧ n ≤ free - (target - released) ∧ n ≤ desired - target ∧ p = min (used + free) required) ∧
      (sk = none → target = desired ∨ free ≤ target - released) := by
  unfold desiredPages
  rw [if_neg (by omega)]
  dsimp only
  by_cases h0 : required = 0
  · rw [if_pos h0]
    exact ⟨_, _, rfl, by omega, by omega, fun _ => rfl, fun h => absurd h0 h, fun h => absurd h0 h, fun _ h => absurd h0 h,
      (by intro n p h; cases h), fun _ => .inl rfl⟩
  · rw [if_neg h0]
    generalize hn : (if used + free ≤ required then released else released + (used + free - required)) = new
    have hnew : (used + free ≤ required ∧ new = released) ∨ (required < used + free ∧ new = released + (used + free - required)) := by
      split at hn <;> omega
    by_cases hd : desired ≤ new
    · rw [if_pos hd]
      refine ⟨_, _, rfl, by omega, by omega, fun h => absurd h h0, ?_, fun _ => .inl rfl, ?_, (by intro n p h; cases h), fun _ => .inl rfl⟩
      · intro _; omega
      · intro _ _; omega
    · rw [if_neg hd]
      refine ⟨_, _, rfl, by omega, by omega, fun h => absurd h h0, ?_, ?_, ?_, ?_, ?_⟩
      · intro _; omega
      · intro _; right; omega
      · intro _ _; omega
      · intro n p hsk
        split at hsk
        · cases hsk
        · simp only [Option.some.injEq, Prod.mk.injEq] at hsk
          obtain ⟨rfl, rfl⟩ := hsk
          refine ⟨by omega, by omega, by omega, rfl⟩
      · intro hsk
        split at hsk
        · right; omega
        · cases hsk
end Verif.TimeSeries
