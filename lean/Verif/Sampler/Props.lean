import Verif.Sampler.Spec
/-! C35: the sampling counter. -/
namespace Verif.Sampler

/-! ### Helper lemmas -/

theorem toS_small {x : Int} (h1 : -2 ^ 63 ≤ x) (h2 : x < 2 ^ 63) : toS x = x := by
  unfold toS; split <;> omega

theorem toU_small {x : Int} (h1 : 0 ≤ x) (h2 : x < 2 ^ 64) : toU x = x.toNat := by
  unfold toU; rw [Int.emod_eq_of_lt h1 h2]

theorem toS_range (x : Int) : -2 ^ 63 ≤ toS x ∧ toS x < 2 ^ 63 := by
  unfold toS; split <;> omega

theorem pick_range {p : Pick} (h : p.OK) : 0 ≤ (pick p).2 ∧ (pick p).2 < 2 ^ 63 := by
  have := h.draw
  unfold pick
  dsimp only
  split
  · omega
  · split <;> omega

theorem pick_mark {p : Pick} (_h : p.OK) : (pick p).1 = p.mark.T ∧ (pick p).2 + 1 = p.mark.at_ ∧ p.mark.taken = 0 := by
  unfold pick Pick.mark
  dsimp only
  refine ⟨rfl, ?_, rfl⟩
  split
  · omega
  · split <;> omega

/-- The counter is in range between allocations. -/
structure Inv (s : S) : Prop where
  lo : 0 ≤ s.until_
  hi : s.until_ < 2 ^ 63
  fresh : s.inited = false → s.until_ = 0

theorem sample_inv {s s' : S} {r : Reads} {w : Nat} (hr : r.OK) (hi : s.inited = true) (h : sample s r = some (w, s')) :
    Inv s' ∧ s'.inited = true := by
  unfold sample at h
  simp only [Option.map_eq_some_iff, Prod.mk.injEq] at h
  obtain ⟨v, -, -, rfl⟩ := h
  have := pick_range hr.next
  exact ⟨⟨this.1, this.2, fun h => by simp_all⟩, hi⟩

theorem slow_inv {s s' : S} {k : Nat} {r : Reads} {w : Nat} (hr : r.OK) (h : slow s k r = some (w, s')) :
    Inv s' ∧ s'.inited = true := by
  unfold slow at h
  split at h
  · exact sample_inv hr (by assumption) h
  · dsimp only at h
    split at h
    · rename_i h0
      simp only [Option.some.injEq, Prod.mk.injEq] at h
      obtain ⟨-, rfl⟩ := h
      exact ⟨⟨h0, (toS_range _).2, fun h => by simp at h⟩, rfl⟩
    · exact sample_inv hr rfl h

theorem tryFast_eq {s : S} {k : Nat} (h : Inv s) :
    tryFast s k = some (!decide (s.until_ < ((k + 1) % 2 ^ 64 : Nat)),
      { s with until_ := toS (s.until_ - ((k + 1) % 2 ^ 64 : Nat)) }) := by
  unfold tryFast
  rw [if_neg (by have := h.lo; omega)]

theorem fast_inv {s s' : S} {k : Nat} (h : Inv s) (h1 : tryFast s k = some (true, s')) :
    Inv s' ∧ s'.inited = s.inited ∧ s'.interval = s.interval ∧
      s'.until_ = s.until_ - ((k + 1) % 2 ^ 64 : Nat) := by
  rw [tryFast_eq h] at h1
  simp only [Option.some.injEq, Prod.mk.injEq, Bool.not_eq_true', decide_eq_false_iff_not] at h1
  obtain ⟨h2, rfl⟩ := h1
  have a := h.lo
  have b := h.hi
  have e := toS_small (x := s.until_ - ((k + 1) % 2 ^ 64 : Nat)) (by omega) (by omega)
  refine ⟨⟨?_, ?_, ?_⟩, rfl, rfl, e⟩
  · show 0 ≤ toS _
    omega
  · show toS _ < _
    omega
  · intro hf
    have := h.fresh hf
    show toS _ = _
    omega

theorem step_inv {s s' : S} {e : Ev} {w : Nat} (h : Inv s) (he : e.OK) (hs : step s e = some (w, s')) : Inv s' := by
  unfold step at hs
  by_cases hl : e.large = true
  · rw [if_pos hl] at hs
    unfold largeAlloc recordAllocation at hs
    split at hs
    · cases hs
    · rename_i s1 h1
      cases hs
      exact (fast_inv h h1).1
    · exact (slow_inv he.reads hs).1
  · rw [if_neg hl] at hs
    unfold smallAlloc at hs
    split at hs
    · cases hs
    · rename_i s1 h1
      split at hs
      · cases hs; exact (fast_inv h h1).1
      · have hi := (fast_inv h h1).1
        unfold recordedFast at hs
        rw [if_neg (by have := hi.lo; omega)] at hs
        cases hs; exact hi
    · unfold recordedFast at hs
      split at hs
      · exact (slow_inv he.reads hs).1
      · rename_i s1 h1 hn
        cases hs
        -- a borrow leaves a negative counter: the size is small
        have hk := he.small (by simpa using hl)
        rw [tryFast_eq h] at h1
        simp only [Option.some.injEq, Prod.mk.injEq, Bool.not_eq_false', decide_eq_true_eq] at h1
        obtain ⟨h2, rfl⟩ := h1
        exfalso
        apply hn
        show toS _ < 0
        rw [toS_small (by have := h.lo; omega) (by have := h.hi; omega)]
        omega

theorem Reach.inv {s : S} (h : Reach s) : Inv s := by
  induction h with
  | init => exact ⟨by decide, by decide, fun _ => rfl⟩
  | step _ he hs ih => exact step_inv ih he hs

/-- The relation to the specification. -/
structure Rel (s : S) (m : Mark) : Prop where
  inited : s.inited = true
  T : s.interval = m.T
  pos : s.until_ + m.taken + 1 = m.at_

theorem sample_spec {s : S} {m : Mark} {k : Nat} {r : Reads} (hr : r.OK) (hi : s.inited = true) (hT : s.interval = m.T)
    (hT0 : 0 ≤ m.T) (hT1 : m.T < 2 ^ 63) (hp : s.until_ + m.taken + 1 + (k + 1) = m.at_) (hlo : -2 ^ 63 ≤ s.until_)
    (hneg : s.until_ < 0) :
    ∃ s', sample s r = some ((m.alloc k r).1, s') ∧ Rel s' (m.alloc k r).2 := by
  have hm : ¬ (m.taken + k + 1 < m.at_) := by omega
  have pm := pick_mark hr.next
  refine ⟨{ s with interval := (pick r.next).1, until_ := (pick r.next).2 }, ?_, ?_⟩
  · unfold sample weight Mark.alloc
    rw [if_pos (by omega)]
    simp only [Option.map_some, hm, if_false, Option.some.injEq, Prod.mk.injEq, and_true]
    split
    · rfl
    · split
      · rw [toU_small (by omega) (by omega)]; congr 1; omega
      · rw [toU_small (by omega) (by omega)]; congr 1; omega
  · unfold Mark.alloc
    simp only [hm, if_false]
    exact ⟨hi, pm.1, by rw [pm.2.2]; have := pm.2.1; show (pick r.next).2 + _ + 1 = _; omega⟩

theorem record_spec {s : S} {m : Mark} {k : Nat} {r : Reads} (h : Inv s) (hr : r.OK) (hR : Rel s m)
    (hT0 : 0 ≤ m.T) (hT1 : m.T < 2 ^ 63) (hk : k < 2 ^ 63) :
    ∃ s', recordAllocation s k r = some ((m.alloc k r).1, s') ∧ Rel s' (m.alloc k r).2 := by
  have a := h.lo
  have b := h.hi
  have hp := hR.pos
  have hmod : (k + 1) % 2 ^ 64 = k + 1 := Nat.mod_eq_of_lt (by omega)
  have e := toS_small (x := s.until_ - ((k + 1 : Nat) : Int)) (by omega) (by omega)
  unfold recordAllocation
  rw [tryFast_eq h, hmod, e]
  by_cases hc : s.until_ < ((k + 1 : Nat) : Int)
  · simp only [hc, decide_true, Bool.not_true]
    unfold slow
    rw [if_pos hR.inited]
    exact sample_spec hr hR.inited hR.T hT0 hT1 (by show s.until_ - _ + _ + 1 + _ = _; omega)
      (by show -_ ≤ s.until_ - _; omega) (by show s.until_ - _ < 0; omega)
  · simp only [hc, decide_false, Bool.not_false]
    have hm : m.taken + k + 1 < m.at_ := by omega
    refine ⟨{ s with until_ := s.until_ - ((k + 1 : Nat) : Int) }, ?_, ?_⟩
    · unfold Mark.alloc
      simp only [hm, if_true]
    · unfold Mark.alloc
      simp only [hm, if_true]
      exact ⟨hR.inited, hR.T, by show s.until_ - _ + _ + 1 = _; dsimp only; omega⟩

/-- The first allocation of a thread. -/
theorem record_first {k : Nat} {r : Reads} (hr : r.OK) (hT0 : 0 ≤ r.first.interval) (hk : k < 2 ^ 63) :
    ∃ s', recordAllocation S.init k r = some ((r.first.mark.alloc k r).1, s') ∧ Rel s' (r.first.mark.alloc k r).2 := by
  have hmod : (k + 1) % 2 ^ 64 = k + 1 := Nat.mod_eq_of_lt (by omega)
  have pm := pick_mark hr.first
  have pr := pick_range hr.first
  have hT1 := hr.first.hi
  unfold recordAllocation
  rw [tryFast_eq (s := S.init) ⟨by decide, by decide, fun _ => rfl⟩, hmod]
  have hc : S.init.until_ < ((k + 1 : Nat) : Int) := by show (0 : Int) < _; omega
  simp only [hc, decide_true, Bool.not_true]
  unfold slow
  rw [if_neg (by show ¬ (false = true); decide), hmod]
  dsimp only
  rw [toS_small (by omega) (by omega)]
  split
  · have hm : r.first.mark.taken + k + 1 < r.first.mark.at_ := by omega
    refine ⟨_, by unfold Mark.alloc; simp only [hm, if_true]; rfl, ?_⟩
    unfold Mark.alloc
    simp only [hm, if_true]
    exact ⟨rfl, pm.1, by dsimp only; omega⟩
  · exact sample_spec hr rfl pm.1 hT0 hT1 (by dsimp only; omega) (by dsimp only; omega) (by dsimp only; omega)

/-! ### The theorems -/

/-- C35: the fast path and the slow path agree.  An allocation that goes through the fast path, whether or not the per-CPU
cache then has an object, changes the counter and is sampled exactly as if the whole record call had been made. -/
theorem fast_slow_agree {s : S} {k : Nat} {hit : Bool} {r : Reads} (h : Reach s) (hk : k < 2 ^ 63) :
    smallAlloc s k hit r = recordAllocation s k r := by
  have hi := h.inv
  have a := hi.lo
  have b := hi.hi
  have hmod : (k + 1) % 2 ^ 64 = k + 1 := Nat.mod_eq_of_lt (by omega)
  unfold smallAlloc recordAllocation
  cases ht : tryFast s k with
  | none => rfl
  | some v =>
    obtain ⟨f, s1⟩ := v
    cases f with
    | true =>
      dsimp only
      split
      · rfl
      · unfold recordedFast
        rw [if_neg (by have := (fast_inv hi ht).1.lo; omega)]
    | false =>
      rw [tryFast_eq hi, hmod, toS_small (by omega) (by omega)] at ht
      simp only [Option.some.injEq, Prod.mk.injEq, Bool.not_eq_false', decide_eq_true_eq] at ht
      obtain ⟨h2, rfl⟩ := ht
      dsimp only
      unfold recordedFast
      rw [if_pos (by dsimp only; omega)]

theorem step_record {s : S} {e : Ev} (h : Reach s) (hk : e.k < 2 ^ 63) :
    step s e = recordAllocation s e.k e.reads := by
  unfold step
  split
  · rfl
  · exact fast_slow_agree h hk

theorem run_spec {es : List Ev} : ∀ {s : S} {m : Mark}, Reach s → Rel s m → 0 ≤ m.T → m.T < 2 ^ 63 →
    (∀ e ∈ es, e.OK) → (∀ e ∈ es, e.NonNeg) → (∀ e ∈ es, e.k < 2 ^ 63) →
    ∃ s', run s es = some ((m.run es).1, s') ∧ Rel s' (m.run es).2 := by
  induction es with
  | nil => intro s m _ hR _ _ _ _ _; exact ⟨s, rfl, hR⟩
  | cons e es ih =>
    intro s m hs hR h0 h1 hok hnn hk
    have he := hok e (List.mem_cons_self ..)
    obtain ⟨s1, r1, R1⟩ := record_spec (k := e.k) hs.inv he.reads hR h0 h1 (hk e (List.mem_cons_self ..))
    rw [← step_record hs (hk e (List.mem_cons_self ..))] at r1
    have hT : 0 ≤ (m.alloc e.k e.reads).2.T ∧ (m.alloc e.k e.reads).2.T < 2 ^ 63 := by
      unfold Mark.alloc
      dsimp only
      split
      · exact ⟨h0, h1⟩
      · exact ⟨(hnn e (List.mem_cons_self ..)).next, he.reads.next.hi⟩
    obtain ⟨s2, r2, R2⟩ := ih (hs.step he r1) R1 hT.1 hT.2 (fun e h => hok e (List.mem_cons_of_mem _ h))
      (fun e h => hnn e (List.mem_cons_of_mem _ h)) (fun e h => hk e (List.mem_cons_of_mem _ h))
    refine ⟨s2, ?_, R2⟩
    unfold run
    rw [r1]
    dsimp only
    rw [r2]
    rfl

/-- C35: for every sequence of allocations by a thread, of sizes below 2^63, and for every sequence of values read from the
interval parameter and drawn by the random number generator, exactly those allocations are sampled that contain the marked
byte, and with the weight of the specification: the interval plus the bytes from the marked byte to the end of the
allocation. -/
theorem sampled_exactly {es : List Ev} (hok : ∀ e ∈ es, e.OK) (hnn : ∀ e ∈ es, e.NonNeg) (hk : ∀ e ∈ es, e.k < 2 ^ 63) :
    ∃ s, run S.init es = some (((firstMark es).run es).1, s) := by
  cases es with
  | nil => exact ⟨_, rfl⟩
  | cons e es =>
    have he := hok e (List.mem_cons_self ..)
    have hn := hnn e (List.mem_cons_self ..)
    obtain ⟨s1, r1, R1⟩ := record_first (k := e.k) he.reads hn.first (hk e (List.mem_cons_self ..))
    rw [← step_record .init (hk e (List.mem_cons_self ..))] at r1
    have hT : 0 ≤ (e.reads.first.mark.alloc e.k e.reads).2.T ∧ (e.reads.first.mark.alloc e.k e.reads).2.T < 2 ^ 63 := by
      unfold Mark.alloc
      dsimp only
      split
      · exact ⟨hn.first, he.reads.first.hi⟩
      · exact ⟨hn.next, he.reads.next.hi⟩
    obtain ⟨s2, r2, -⟩ := run_spec (Reach.step .init he r1) R1 hT.1 hT.2 (fun e h => hok e (List.mem_cons_of_mem _ h))
      (fun e h => hnn e (List.mem_cons_of_mem _ h)) (fun e h => hk e (List.mem_cons_of_mem _ h))
    refine ⟨s2, ?_⟩
    unfold run
    rw [r1]
    dsimp only
    rw [r2]
    rfl

/-- C35: whatever sizes are requested (also ones that no allocation can satisfy), the counter is never negative between
allocations, so the assertion of the fast path holds; and the sampler call only fails in one way, the signed overflow of
`signed_overflow` below. -/
theorem counter_in_range {s : S} (h : Reach s) : 0 ≤ s.until_ ∧ s.until_ < 2 ^ 63 := ⟨h.inv.lo, h.inv.hi⟩

/-- C35: `WillRecordAllocation` predicts: once the thread has allocated, it answers true exactly if the allocation would
reach the marked byte, and in that case the very next allocation of that size takes a sample (the counter is drawn anew). -/
theorem prediction {s : S} {k : Nat} {r : Reads} {w : Nat} {s' : S} (h : Reach s) (hi : s.inited = true) (hk : k < 2 ^ 63)
    (hr : recordAllocation s k r = some (w, s')) :
    (willRecord s k = true → s'.until_ = (pick r.next).2 ∧ (s.interval < 0 ∨ r.last ≤ 0 ∨
        (w : Int) = min (s.interval + (k - s.until_)) (2 ^ 63 - 1))) ∧
    (willRecord s k = false → w = 0 ∧ s'.until_ = s.until_ - (k + 1)) := by
  have hv := h.inv
  have a := hv.lo
  have b := hv.hi
  have hmod : (k + 1) % 2 ^ 64 = k + 1 := Nat.mod_eq_of_lt (by omega)
  have e := toS_small (x := s.until_ - ((k + 1 : Nat) : Int)) (by omega) (by omega)
  unfold recordAllocation at hr
  rw [tryFast_eq hv, hmod, e] at hr
  unfold willRecord
  rw [toU_small a (by omega), hmod]
  by_cases hc : s.until_ < ((k + 1 : Nat) : Int)
  · simp only [hc, decide_true, Bool.not_true] at hr
    unfold slow at hr
    rw [if_pos hi] at hr
    unfold sample weight at hr
    rw [if_pos (by dsimp only; omega)] at hr
    simp only [Option.map_some, Option.some.injEq, Prod.mk.injEq] at hr
    obtain ⟨h1, rfl⟩ := hr
    have hd : decide (s.until_.toNat < k + 1) = true := by rw [decide_eq_true_eq]; omega
    rw [hd]
    refine ⟨fun _ => ⟨rfl, ?_⟩, (fun h => by cases h)⟩
    by_cases hn : s.interval < 0
    · exact .inl hn
    by_cases hl : r.last ≤ 0
    · exact .inr (.inl hl)
    rw [if_neg hl] at h1
    right; right
    split at h1
    · rw [toU_small (by omega) (by omega)] at h1; omega
    · rw [toU_small (by omega) (by omega)] at h1; omega
  · simp only [hc, decide_false, Bool.not_false] at hr
    simp only [Option.some.injEq, Prod.mk.injEq] at hr
    obtain ⟨rfl, rfl⟩ := hr
    have hd : decide (s.until_.toNat < k + 1) = false := by rw [decide_eq_false_iff_not]; omega
    rw [hd]
    exact ⟨(fun h => by cases h), fun _ => ⟨rfl, by show s.until_ - _ = _; omega⟩⟩

/-! Consequences over whole histories. -/

/-- All values a list of allocations reads satisfy `P`. -/
def AllIntervals (P : Int → Prop) (es : List Ev) : Prop :=
  ∀ e ∈ es, P e.reads.first.interval ∧ P e.reads.next.interval ∧ P e.reads.last

theorem Mark.run_one {es : List Ev} : ∀ {m : Mark}, m.T = 1 → m.at_ = 1 → m.taken = 0 → AllIntervals (· = 1) es →
    (∀ e ∈ es, e.k + 1 < 2 ^ 63) → (m.run es).1 = es.map fun e => e.k + 1 := by
  induction es with
  | nil => intros; rfl
  | cons e es ih =>
    intro m h1 h2 h3 hi hk
    have he := hi e (List.mem_cons_self ..)
    have hke := hk e (List.mem_cons_self ..)
    have ha : m.alloc e.k e.reads = (e.k + 1, e.reads.next.mark) := by
      unfold Mark.alloc
      simp only [h1, h2, h3, he.2.2]
      rw [if_neg (by omega), if_neg (by omega)]
      simp only [Prod.mk.injEq, and_true]
      omega
    unfold Mark.run
    rw [ha]
    dsimp only
    rw [List.map_cons]
    congr 1
    refine ih ?_ ?_ rfl (fun e h => hi e (List.mem_cons_of_mem _ h)) (fun e h => hk e (List.mem_cons_of_mem _ h))
    · exact he.2.1
    · unfold Pick.mark; simp [he.2.1]

/-- C35: with an interval of 1 every allocation is sampled, and stands for exactly its own bytes (counting `k + 1` for a
request of `k`). -/
theorem interval_one_samples_all {es : List Ev} (hok : ∀ e ∈ es, e.OK) (hi : AllIntervals (· = 1) es)
    (hk : ∀ e ∈ es, e.k + 1 < 2 ^ 63) : ∃ s, run S.init es = some (es.map fun e => e.k + 1, s) := by
  obtain ⟨s, hs⟩ := sampled_exactly hok (fun e he => by have := hi e he; exact ⟨by omega, by omega⟩)
    (fun e he => by have := hk e he; omega)
  refine ⟨s, ?_⟩
  rw [hs]
  cases es with
  | nil => rfl
  | cons e es =>
    have he := hi e (List.mem_cons_self ..)
    rw [Mark.run_one _ _ _ hi hk]
    · exact he.1
    · unfold firstMark Pick.mark; simp [he.1]
    · rfl

/-- C35: while the interval is 0 or negative nothing is sampled, whatever the sizes. -/
theorem interval_zero_samples_none {s s' : S} {es : List Ev} {ws : List Nat} (hl : ∀ e ∈ es, e.reads.last ≤ 0)
    (hr : run s es = some (ws, s')) : ∀ w ∈ ws, w = 0 := by
  induction es generalizing s ws with
  | nil => cases hr; intro w h; cases h
  | cons e es ih =>
    unfold run at hr
    split at hr
    · cases hr
    · rename_i w0 s1 h1
      simp only [Option.map_eq_some_iff, Prod.mk.injEq] at hr
      obtain ⟨⟨ws1, s2⟩, h2, rfl, rfl⟩ := hr
      intro w hw
      rcases List.mem_cons.1 hw with rfl | hw
      · have h0 : e.reads.last ≤ 0 := hl e (List.mem_cons_self ..)
        have hsample : ∀ {s s' : S} {w : Nat}, sample s e.reads = some (w, s') → w = 0 := by
          intro s s' w h
          unfold sample at h
          simp only [Option.map_eq_some_iff, Prod.mk.injEq, if_pos h0] at h
          obtain ⟨_, -, rfl, -⟩ := h
          rfl
        have hslow : ∀ {s s' : S} {w : Nat}, slow s e.k e.reads = some (w, s') → w = 0 := by
          intro s s' w h
          unfold slow at h
          split at h
          · exact hsample h
          · dsimp only at h
            split at h
            · cases h; rfl
            · exact hsample h
        have hrec : ∀ {s s' : S} {w : Nat}, recordedFast s e.k e.reads = some (w, s') → w = 0 := by
          intro s s' w h
          unfold recordedFast at h
          split at h
          · exact hslow h
          · cases h; rfl
        unfold step at h1
        split at h1
        · unfold largeAlloc recordAllocation at h1
          split at h1
          · cases h1
          · cases h1; rfl
          · exact hslow h1
        · unfold smallAlloc at h1
          split at h1
          · cases h1
          · split at h1
            · cases h1; rfl
            · exact hrec h1
          · exact hrec h1
      · exact ih (fun e h => hl e (List.mem_cons_of_mem _ h)) h2 w hw

/-- The bytes of a list of allocations, as the sampler counts them. -/
def bytes (es : List Ev) : Nat := (es.map fun e => e.k + 1).sum

/-- The difference between what was drawn and the interval it was drawn for, summed over the marks reached. -/
def Mark.luck (m : Mark) : List Ev → Int
  | [] => 0
  | e :: es => (if m.taken + e.k + 1 < m.at_ then 0 else m.T - m.at_) + (m.alloc e.k e.reads).2.luck es

theorem Mark.run_sum {es : List Ev} : ∀ {m : Mark}, 0 < m.T → m.T + m.taken + bytes es < 2 ^ 63 → AllIntervals (0 < ·) es →
    (∀ e ∈ es, e.reads.next.interval + bytes es < 2 ^ 63) →
    ((m.run es).1.sum : Int) + (m.run es).2.taken = m.taken + bytes es + m.luck es := by
  induction es with
  | nil => intro m _ _ _ _; simp [Mark.run, Mark.luck, bytes]
  | cons e es ih =>
    intro m hT hb hi hn
    have he := hi e (List.mem_cons_self ..)
    have hne := hn e (List.mem_cons_self ..)
    have hby : bytes (e :: es) = e.k + 1 + bytes es := by simp [bytes]
    unfold Mark.run Mark.luck
    by_cases hc : m.taken + e.k + 1 < m.at_
    · have ha : m.alloc e.k e.reads = (0, { m with taken := m.taken + e.k + 1 }) := by
        unfold Mark.alloc; simp only [hc, if_true]
      rw [ha, if_pos hc]
      have := ih (m := { m with taken := m.taken + e.k + 1 }) hT (by dsimp only; omega)
        (fun e h => hi e (List.mem_cons_of_mem _ h)) (fun e h => by have := hn e (List.mem_cons_of_mem _ h); omega)
      dsimp only at this ⊢
      rw [List.sum_cons, hby]
      omega
    · have ha : m.alloc e.k e.reads = ((m.T + (m.taken + e.k + 1 - m.at_ : Nat)).toNat, e.reads.next.mark) := by
        unfold Mark.alloc
        simp only [hc, if_false, Prod.mk.injEq, and_true]
        rw [if_neg (by have := he.2.2; omega)]
        congr 1
        omega
      rw [ha, if_neg hc]
      have h0 : e.reads.next.mark.taken = 0 := rfl
      have h1 : e.reads.next.mark.T = e.reads.next.interval := rfl
      have := ih (m := e.reads.next.mark) (by rw [h1]; exact he.2.1) (by rw [h0, h1]; omega)
        (fun e h => hi e (List.mem_cons_of_mem _ h)) (fun e h => by have := hn e (List.mem_cons_of_mem _ h); omega)
      dsimp only at this ⊢
      rw [List.sum_cons, hby]
      omega

/-- C35: the weights account for every byte.  While sampling is on, the weights of all samples together are the bytes of
all allocations up to the last sample, corrected by how much each number drawn differed from the interval it was drawn for
(on average not at all); the bytes since the last sample are still pending. -/
theorem weights_account_for_bytes {es : List Ev} {s : S} {ws : List Nat} (hok : ∀ e ∈ es, e.OK)
    (hi : AllIntervals (0 < ·) es)
    (hn : ∀ e ∈ es, e.reads.first.interval + bytes es < 2 ^ 63 ∧ e.reads.next.interval + bytes es < 2 ^ 63)
    (hr : run S.init es = some (ws, s)) :
    (ws.sum : Int) + ((firstMark es).run es).2.taken = bytes es + (firstMark es).luck es := by
  have hk : ∀ e ∈ es, e.k + 1 ≤ bytes es := by
    intro e he
    unfold bytes
    clear hr hn hi hok
    induction es with
    | nil => cases he
    | cons a es ih =>
      rw [List.map_cons, List.sum_cons]
      rcases List.mem_cons.1 he with rfl | he
      · omega
      · have := ih he; omega
  obtain ⟨s1, h1⟩ := sampled_exactly hok (fun e he => by have := hi e he; exact ⟨by omega, by omega⟩)
    (fun e he => by have := hk e he; have := (hn e he).1; have := (hi e he).1; omega)
  rw [h1] at hr
  cases hr
  cases es with
  | nil => rfl
  | cons e es =>
    have he := hi e (List.mem_cons_self ..)
    have := Mark.run_sum (es := e :: es) (m := firstMark (e :: es)) he.1
      (by show e.reads.first.interval + ((0 : Nat) : Int) + _ < _; have := (hn e (List.mem_cons_self ..)).1; omega) hi (fun e h => (hn e h).2)
    have h0 : (firstMark (e :: es)).taken = 0 := rfl
    rw [this, h0]
    omega

theorem Mark.run_fires {es : List Ev} : ∀ {m : Mark}, m.at_ ≤ m.taken + bytes es →
    m.taken < m.at_ →
    ∃ pre e post, es = pre ++ e :: post ∧ (m.run pre).1 = List.replicate pre.length 0 ∧
      ((m.run pre).2.alloc e.k e.reads).2 = e.reads.next.mark ∧ m.taken + bytes pre < m.at_ ∧
      m.at_ ≤ m.taken + bytes (pre ++ [e]) := by
  induction es with
  | nil => intro m h h2; simp [bytes] at h; omega
  | cons e es ih =>
    intro m h h2
    have hby : ∀ l, bytes (e :: l) = e.k + 1 + bytes l := by intro l; simp [bytes]
    by_cases hc : m.taken + e.k + 1 < m.at_
    · have ha : m.alloc e.k e.reads = (0, { m with taken := m.taken + e.k + 1 }) := by
        unfold Mark.alloc; simp only [hc, if_true]
      rw [hby] at h
      obtain ⟨pre, x, post, rfl, a1, a2, a3, a4⟩ := ih (m := { m with taken := m.taken + e.k + 1 }) (by dsimp only; omega)
        (by dsimp only; omega)
      dsimp only at a1 a2 a3 a4
      refine ⟨e :: pre, x, post, rfl, ?_, ?_, ?_, ?_⟩
      · unfold Mark.run; rw [ha]; dsimp only; rw [a1]; rfl
      · unfold Mark.run; rw [ha]; dsimp only; exact a2
      · rw [hby]; omega
      · rw [List.cons_append, hby]; omega
    · refine ⟨[], e, es, rfl, rfl, ?_, ?_, ?_⟩
      · show (m.alloc e.k e.reads).2 = _
        unfold Mark.alloc
        simp only [hc, if_false]
      · simp [bytes]; omega
      · simp [bytes]; omega

/-- C35: sampling that has been off comes back.  If the interval was 0 when the last mark was set, then among any
allocations of more than 128 MiB together there is one at which the sampler draws anew; those before it are not sampled. -/
theorem back_within {es : List Ev} {s : S} {m : Mark} (hs : Reach s) (hR : Rel s m) (h0 : m.T = 0)
    (hm : m.at_ = 128 * 2 ^ 20 + 1) (hlt : m.taken < m.at_) (hok : ∀ e ∈ es, e.OK) (hnn : ∀ e ∈ es, e.NonNeg)
    (hk : ∀ e ∈ es, e.k < 2 ^ 63) (hb : 128 * 2 ^ 20 < bytes es) :
    ∃ pre e post s1 w s2, es = pre ++ e :: post ∧ run s pre = some (List.replicate pre.length 0, s1) ∧
      step s1 e = some (w, s2) ∧ s2.interval = e.reads.next.interval ∧ s2.until_ = (pick e.reads.next).2 := by
  obtain ⟨pre, e, post, rfl, a1, a2, -, -⟩ := Mark.run_fires (es := es) (m := m) (by omega) hlt
  have hsub : ∀ x ∈ pre, x ∈ pre ++ e :: post := fun x h => List.mem_append_left _ h
  obtain ⟨s1, r1, R1⟩ := run_spec (es := pre) hs hR (by omega) (by omega) (fun x h => hok x (hsub x h))
    (fun x h => hnn x (hsub x h)) (fun x h => hk x (hsub x h))
  rw [a1] at r1
  have hmem : e ∈ pre ++ e :: post := List.mem_append_right _ (List.mem_cons_self ..)
  have hreach : ∀ {l : List Ev} {s s' : S} {ws}, (∀ x ∈ l, x.OK) → Reach s → run s l = some (ws, s') → Reach s' := by
    intro l
    induction l with
    | nil => intro s s' ws _ h hr; cases hr; exact h
    | cons x l ih =>
      intro s s' ws hx h hr
      unfold run at hr
      split at hr
      · cases hr
      · rename_i w s3 h3
        simp only [Option.map_eq_some_iff, Prod.mk.injEq] at hr
        obtain ⟨⟨ws1, s4⟩, h4, -, rfl⟩ := hr
        exact ih (fun y hy => hx y (List.mem_cons_of_mem _ hy)) (h.step (hx x (List.mem_cons_self ..)) h3) h4
  have hs1 := hreach (fun x h => hok x (hsub x h)) hs r1
  have hT : ∀ {l : List Ev} {m : Mark}, 0 ≤ m.T → m.T < 2 ^ 63 → (∀ x ∈ l, x.OK) → (∀ x ∈ l, x.NonNeg) →
      0 ≤ (m.run l).2.T ∧ (m.run l).2.T < 2 ^ 63 := by
    intro l
    induction l with
    | nil => intro m a b _ _; exact ⟨a, b⟩
    | cons x l ih =>
      intro m a b hx hy
      unfold Mark.run
      refine ih ?_ ?_ (fun y h => hx y (List.mem_cons_of_mem _ h)) (fun y h => hy y (List.mem_cons_of_mem _ h))
      · unfold Mark.alloc
        dsimp only
        split
        · exact a
        · exact (hy x (List.mem_cons_self ..)).next
      · unfold Mark.alloc
        dsimp only
        split
        · exact b
        · exact (hx x (List.mem_cons_self ..)).reads.next.hi
  have hT' := hT (l := pre) (m := m) (by omega) (by omega) (fun x h => hok x (hsub x h)) (fun x h => hnn x (hsub x h))
  obtain ⟨s2, r2, R2⟩ := record_spec (k := e.k) hs1.inv (hok e hmem).reads R1 hT'.1 hT'.2 (hk e hmem)
  rw [← step_record hs1 (hk e hmem)] at r2
  rw [a2] at R2
  have pm := pick_mark (hok e hmem).reads.next
  have h1 := R2.T
  have h2 := R2.pos
  exact ⟨pre, e, post, s1, _, s2, rfl, r1, r2, by rw [h1]; rfl, by omega⟩

/-! ### Where the full statement fails -/

/-- No call of the sampler fails for a size below 2^63, whatever the intervals. -/
theorem calls_succeed {s : S} {e : Ev} (h : Reach s) (hk : e.k < 2 ^ 63) (hr : e.reads.OK) : (step s e).isSome = true := by
  have hv := h.inv
  have a := hv.lo
  have b := hv.hi
  have hmod : (e.k + 1) % 2 ^ 64 = e.k + 1 := Nat.mod_eq_of_lt (by omega)
  have pr := pick_range hr.first
  rw [step_record h hk]
  unfold recordAllocation
  rw [tryFast_eq hv, hmod, toS_small (by omega) (by omega)]
  by_cases hc : s.until_ < ((e.k + 1 : Nat) : Int)
  · simp only [hc, decide_true, Bool.not_true]
    have hsm : ∀ {s : S}, s.until_ < 0 → (sample s e.reads).isSome = true := by
      intro s hs
      unfold sample weight
      rw [if_pos (by omega)]
      rfl
    unfold slow
    split
    · exact hsm (by dsimp only; omega)
    · rw [hmod]
      dsimp only
      split
      · rfl
      · rename_i hn
        exact hsm (by dsimp only; omega)
  · simp only [hc, decide_false, Bool.not_false]
    rfl

/-- A request that can never be satisfied, made as the first allocation of a thread, turns sampling off in that thread.
`malloc(2^63 + d)` with `d` not below the number drawn is not sampled although it contains the marked byte, and leaves a
counter of more than 2^63 - d. -/
theorem first_huge_request_stops_sampling {d : Nat} {r : Reads} (hr : r.OK) (hd : (pick r.first).2 ≤ d) (hd2 : d + 1 < 2 ^ 63) :
    ∃ s, largeAlloc S.init (2 ^ 63 + d) r = some (0, s) ∧ s.until_ = 2 ^ 63 + (pick r.first).2 - (d + 1) := by
  have pr := pick_range hr.first
  have hmod : (2 ^ 63 + d + 1) % 2 ^ 64 = 2 ^ 63 + d + 1 := Nat.mod_eq_of_lt (by omega)
  have e : toS ((pick r.first).2 - ((2 ^ 63 + d + 1 : Nat) : Int)) = 2 ^ 63 + (pick r.first).2 - (d + 1) := by
    unfold toS
    have : ((pick r.first).2 - ((2 ^ 63 + d + 1 : Nat) : Int)) % 2 ^ 64 = 2 ^ 63 + (pick r.first).2 - (d + 1) := by omega
    rw [this, if_pos (by omega)]
  refine ⟨⟨(pick r.first).1, true, 2 ^ 63 + (pick r.first).2 - (d + 1)⟩, ?_, rfl⟩
  unfold largeAlloc recordAllocation
  rw [tryFast_eq (s := S.init) ⟨by decide, by decide, fun _ => rfl⟩, hmod]
  have hc : S.init.until_ < ((2 ^ 63 + d + 1 : Nat) : Int) := by show (0 : Int) < _; omega
  simp only [hc, decide_true, Bool.not_true]
  unfold slow
  rw [if_neg (by show ¬ (false = true); decide), hmod]
  dsimp only
  rw [e, if_pos (by omega)]

/-- A request of the largest `size_t` is not counted at all. -/
theorem max_request_not_counted {s : S} {r : Reads} (h : Reach s) : largeAlloc s (2 ^ 64 - 1) r = some (0, s) := by
  have hv := h.inv
  have a := hv.lo
  have b := hv.hi
  unfold largeAlloc recordAllocation
  rw [tryFast_eq hv]
  have e : toS (s.until_ - (((2 ^ 64 - 1 + 1) % 2 ^ 64 : Nat) : Int)) = s.until_ := by
    rw [toS_small (by omega) (by omega)]; omega
  have hc : ¬ s.until_ < (((2 ^ 64 - 1 + 1) % 2 ^ 64 : Nat) : Int) := by omega
  rw [e]
  simp only [hc, decide_false, Bool.not_false]

/-- For one size above 2^63 the addition of the weight computation overflows. -/
theorem signed_overflow {s : S} {r : Reads} (h : Reach s) (hi : s.inited = true) (hu : s.until_ + 2 ^ 63 < 2 ^ 64 - 1) :
    largeAlloc s (s.until_ + 2 ^ 63).toNat r = none := by
  have hv := h.inv
  have a := hv.lo
  have b := hv.hi
  have hmod : ((s.until_ + 2 ^ 63).toNat + 1) % 2 ^ 64 = (s.until_ + 2 ^ 63).toNat + 1 := Nat.mod_eq_of_lt (by omega)
  have e : toS (s.until_ - (((s.until_ + 2 ^ 63).toNat + 1 : Nat) : Int)) = 2 ^ 63 - 1 := by
    have : s.until_ - (((s.until_ + 2 ^ 63).toNat + 1 : Nat) : Int) = -2 ^ 63 - 1 := by omega
    rw [this]; decide
  unfold largeAlloc recordAllocation
  rw [tryFast_eq hv, hmod, e]
  have hc : s.until_ < (((s.until_ + 2 ^ 63).toNat + 1 : Nat) : Int) := by omega
  simp only [hc, decide_true, Bool.not_true]
  unfold slow
  rw [if_pos hi]
  rfl

end Verif.Sampler
