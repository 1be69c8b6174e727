import Verif.Sampling.Lemmas3
/-
C66: the accounts of sampled allocations.  C67: allocation profiles.  C68: the peak heap profile.
-/
namespace Verif.Sampling

/-! ### C66 -/

/-- C66.  No history makes a check on the sampled path fail. -/
theorem no_check_fails {A : Arith} {σ : State} (h : Reach A σ) (c : Cmd) : step A σ c ≠ .fail := by
  have acc := reach_acc h
  have prof := reach_prof h
  intro hs
  cases c with
  | go i =>
    simp only [step] at hs
    cases hpc : σ.calls[i]? with
    | none => rw [hpc] at hs; cases hs
    | some pc =>
      rw [hpc] at hs
      cases pc with
      | unregistered s =>
        simp only [goStep] at hs
        split at hs
        · rename_i hlt
          rw [if_neg (frag_ok acc hpc hlt)] at hs
          cases hs
        · cases hs
      | sampled s | peakRead s p | wantLock s | holding s =>
        simp only [goStep] at hs
        split at hs <;> cases hs
      | _ => cases hs
  | stop tok | drop tok =>
    simp only [step] at hs
    split at hs
    · rename_i ht
      obtain ⟨l, hl⟩ := remove_some ((prof.inList tok).2 ht)
      rw [hl] at hs
      cases hs
    · cases hs
    · cases hs
  | save i copied =>
    simp only [step] at hs
    split at hs
    · split at hs <;> cases hs
    · cases hs
  | malloc w r a | free s | start tok | dump =>
    simp only [step] at hs
    split at hs <;> cases hs

theorem quiet_sum {f : Pc → Nat} (hd : f .done = 0) : ∀ {l : List Pc}, (∀ pc ∈ l, pc = .done) →
    (l.map f).sum = 0
  | [], _ => rfl
  | a :: l, h => by
    rw [List.map_cons, List.sum_cons, h a List.mem_cons_self, hd,
      quiet_sum hd (fun x hx => h x (List.mem_cons_of_mem _ hx))]

/-- C66.  However allocations and deallocations were interleaved, when none is under way the
recorded samples are exactly the sampled blocks that are held, the sampled size and the estimated
waste are their totals over those blocks, and the number of samples ever taken is counted
exactly. -/
theorem accounts_exact {A : Arith} {σ : State} (h : Reach A σ) (hq : Quiet σ) :
    σ.live.Perm σ.owned ∧ σ.owned.Nodup ∧ σ.size = (total A.bytes σ.owned : Int) ∧
    σ.frag = (total (waste A) σ.owned : Int) ∧ σ.total = (samplesOf σ.trace).length := by
  have acc := reach_acc h
  have hp : σ.live.Perm σ.owned := by
    rw [List.perm_iff_count]
    intro x
    rw [acc.live x, quiet_sum rfl hq]
    rfl
  refine ⟨hp, hp.nodup (live_nodup acc), ?_, ?_, ?_⟩
  · rw [acc.size, quiet_sum rfl hq]; rfl
  · rw [acc.frag, quiet_sum rfl hq]; rfl
  · rw [← acc.count, quiet_sum rfl hq]; rfl

/-- C66.  At no time is either amount negative, whatever is under way. -/
theorem accounts_nonneg {A : Arith} {σ : State} (h : Reach A σ) : 0 ≤ σ.size ∧ 0 ≤ σ.frag := by
  have acc := reach_acc h
  have h1 := acc.size
  have h2 := acc.frag
  omega

/-- C66.  No two samples ever get the same handle, and none gets 0. -/
theorem handles_distinct {A : Arith} {σ : State} (h : Reach A σ) :
    ((samplesOf σ.trace).map Sample.handle).Nodup ∧ ∀ s ∈ samplesOf σ.trace, s.handle ≠ 0 := by
  have acc := reach_acc h
  have key : ∀ n (l : List Sample), (l.map Sample.handle).count n = hCount n l := by
    intro n l
    induction l with
    | nil => rfl
    | cons a l ih =>
      unfold hCount at ih ⊢
      rw [List.map_cons, List.count_cons, total_cons, ih]
      by_cases ha : a.handle = n <;> simp [ha] <;> omega
  constructor
  · rw [List.nodup_iff_count]
    intro n
    rw [key]
    have := acc.once n
    omega
  · intro s hs h0
    have h1 := acc.fresh 0 (.inl rfl)
    have h2 := key 0 (samplesOf σ.trace)
    have h3 : 0 < ((samplesOf σ.trace).map Sample.handle).count 0 :=
      List.count_pos_iff.2 (h0 ▸ List.mem_map_of_mem hs)
    omega

/-! ### C67 -/

/-- C67.  A profile, when stopped, holds exactly the samples taken since it was started, newest
first, however many others were running and whatever was under way; stopping it again gives
nothing. -/
theorem profile_exact {A : Arith} {σ : State} (h : Reach A σ) {newer older : List Ev} {tok : Nat}
    {out : Option (List Sample)} (ht : σ.trace = newer ++ .stopped tok out :: older) :
    wasStarted tok older ∧
    out = if isRunning tok older then some (collected tok older) else none :=
  stops_at (ht ▸ (reach_prof h).stops)

/-- C67.  An entry's total is the multiple of the block size nearest to the estimate: it is off by
at most half a block and half a byte. -/
theorem entry_rounding (s : Sample) (h : s.allocated ≠ 0) :
    s.allocated ∣ entrySum s ∧
    2 * (entrySum s * (s.requested + 1)) ≤
      2 * (s.weight * s.allocated) + (s.allocated + 1) * (s.requested + 1) ∧
    2 * (s.weight * s.allocated) ≤
      2 * (entrySum s * (s.requested + 1)) + (s.allocated + 1) * (s.requested + 1) := by
  obtain ⟨hd, w, r, a⟩ := s
  simp only at h
  refine ⟨⟨entryCount _, Nat.mul_comm _ _⟩, ?_⟩
  unfold entrySum entryCount
  simp only [ne_eq, h, not_false_eq_true, if_true]
  generalize hR : r + 1 = R
  have hRpos : 0 < R := by omega
  generalize hX : w * a = X
  have hXX : 2 * w * a = 2 * X := by rw [Nat.mul_assoc, hX]
  rw [hXX]
  generalize hB : (2 * X + R) / (2 * R) = B
  have b1 : B * (2 * R) ≤ 2 * X + R := by rw [← hB]; exact Nat.div_mul_le_self _ _
  have b2 : 2 * X + R < (B + 1) * (2 * R) := by
    rw [← hB, Nat.add_mul, Nat.one_mul]
    exact Nat.lt_div_mul_add (by omega)
  generalize hC : (B + a / 2) / a = C
  have c1 : C * a ≤ B + a / 2 := by rw [← hC]; exact Nat.div_mul_le_self _ _
  have c2 : B + a / 2 < C * a + a := by
    rw [← hC]
    exact Nat.lt_div_mul_add (by omega)
  generalize C * a = S at c1 c2
  have b1' : 2 * (B * R) ≤ 2 * X + R := by
    have : B * (2 * R) = 2 * (B * R) := by rw [← Nat.mul_assoc, Nat.mul_comm B 2, Nat.mul_assoc]
    omega
  have b2' : 2 * X < 2 * (B * R) + R := by
    have : (B + 1) * (2 * R) = 2 * (B * R) + 2 * R := by
      rw [Nat.add_mul, Nat.one_mul, ← Nat.mul_assoc, Nat.mul_comm B 2, Nat.mul_assoc]
    omega
  have h1 : 2 * S ≤ 2 * B + a := by omega
  have h2 : 2 * B ≤ 2 * S + a := by omega
  have m1 := Nat.mul_le_mul_right R h1
  have m2 := Nat.mul_le_mul_right R h2
  rw [Nat.add_mul, Nat.mul_assoc, Nat.mul_assoc] at m1 m2
  rw [Nat.add_mul a 1 R, Nat.one_mul]
  constructor <;> omega

/-! ### C68 -/

/-- C68 (what holds).  As long as calls do not overlap: the recorded peak never goes down, and when
no call is under way the heap is no new peak against it and the saved samples make up exactly the
recorded peak. -/
theorem peak_sequential_partial {A : Arith} (hA : Sane A) {σ : State} (h : Seq A σ) :
    (∀ c τ, step A σ c = .ok τ → σ.peakSize ≤ τ.peakSize) ∧
    (Quiet σ → A.newPeak σ.size σ.peakSize = false ∧
      (total A.bytes σ.peak : Int) = σ.peakSize) :=
  ⟨fun _ _ hs => seq_peak_mono hA h hs, (seq_sinv hA h).quiet⟩

/-- The samples saved and about to be saved have been taken. -/
structure Seen (σ : State) : Prop where
  peak : ∀ x ∈ σ.peak, x ∈ samplesOf σ.trace
  win : ∀ must may, σ.window = some (must, may) → ∀ x ∈ may, x ∈ samplesOf σ.trace

theorem samplesOf_cons {e : Ev} {l : List Ev} {x : Sample} (h : x ∈ samplesOf l) :
    x ∈ samplesOf (e :: l) := by
  cases e with
  | sampled s => exact List.mem_cons_of_mem _ h
  | _ => exact h

theorem seen_mono {σ τ : State} (inv : Seen σ) (h1 : τ.peak = σ.peak) (h2 : τ.window = σ.window)
    (h3 : ∀ x ∈ samplesOf σ.trace, x ∈ samplesOf τ.trace) : Seen τ :=
  ⟨fun x hx => h3 x (inv.peak x (h1 ▸ hx)), fun m m' hw x hx => h3 x (inv.win m m' (h2 ▸ hw) x hx)⟩

theorem live_seen {A : Arith} {σ : State} (acc : Acc A σ) : ∀ x ∈ σ.live, x ∈ samplesOf σ.trace := by
  intro x hx
  have h1 := live_le acc x
  have h2 := List.count_pos_iff.2 hx
  exact List.count_pos_iff.1 (by omega)

theorem seen_step {A : Arith} {σ τ : State} {c : Cmd} (acc : Acc A σ) (inv : Seen σ)
    (hs : step A σ c = .ok τ) : Seen τ := by
  have same : ∀ {τ : State}, τ.peak = σ.peak → τ.window = σ.window → τ.trace = σ.trace → Seen τ :=
    fun h1 h2 h3 => seen_mono inv h1 h2 (fun x hx => h3 ▸ hx)
  cases c with
  | go i =>
    simp only [step] at hs
    cases hpc : σ.calls[i]? with
    | none => rw [hpc] at hs; cases hs
    | some pc =>
      rw [hpc] at hs
      cases pc with
      | fragged s =>
        simp only [goStep, Out.ok.injEq] at hs
        subst hs
        exact seen_mono inv rfl rfl (fun x hx => samplesOf_cons hx)
      | reported s =>
        simp only [goStep, Out.ok.injEq] at hs
        subst hs
        refine ⟨inv.peak, ?_⟩
        intro must may hw x hx
        have hseen : s ∈ samplesOf σ.trace := by
          have h1 := sum_le (pHeld s) σ.calls i _ hpc
          have h2 := acc.held s
          simp only [pHeld, if_true] at h1
          exact List.count_pos_iff.1 (by omega)
        cases hwin : σ.window with
        | none => rw [show winAdd σ.window s = none by rw [hwin]; rfl] at hw; cases hw
        | some w =>
          obtain ⟨a, b⟩ := w
          rw [show winAdd σ.window s = some (a, s :: b) by rw [hwin]; rfl] at hw
          simp only [Option.some.injEq, Prod.mk.injEq] at hw
          obtain ⟨-, rfl⟩ := hw
          rcases List.mem_cons.1 hx with rfl | hx
          · exact hseen
          · exact inv.win a b hwin x hx
      | unsampled s =>
        simp only [goStep, Out.ok.injEq] at hs
        subst hs
        refine ⟨inv.peak, ?_⟩
        intro must may hw x hx
        cases hwin : σ.window with
        | none => rw [show winErase σ.window s = none by rw [hwin]; rfl] at hw; cases hw
        | some w =>
          obtain ⟨a, b⟩ := w
          rw [show winErase σ.window s = some (a.erase s, b) by rw [hwin]; rfl] at hw
          simp only [Option.some.injEq, Prod.mk.injEq] at hw
          obtain ⟨-, rfl⟩ := hw
          exact inv.win a b hwin x hx
      | readSize s v =>
        simp only [goStep, Out.ok.injEq] at hs
        subst hs
        refine ⟨(fun x hx => by cases hx), ?_⟩
        intro must may hw x hx
        simp only [Option.some.injEq, Prod.mk.injEq] at hw
        obtain ⟨-, rfl⟩ := hw
        exact live_seen acc x hx
      | took s | registered s | locked s =>
        simp only [goStep, Out.ok.injEq] at hs
        subst hs
        exact same rfl rfl rfl
      | sampled s | peakRead s p | wantLock s | holding s =>
        simp only [goStep] at hs
        split at hs
        · first
            | cases hs; done
            | (simp only [Out.ok.injEq] at hs; subst hs; exact same rfl rfl rfl)
        · simp only [Out.ok.injEq] at hs
          subst hs
          exact same rfl rfl rfl
      | unregistered s =>
        simp only [goStep] at hs
        split at hs
        · split at hs
          · cases hs
          · simp only [Out.ok.injEq] at hs
            subst hs
            exact same rfl rfl rfl
        · simp only [Out.ok.injEq] at hs
          subst hs
          exact same rfl rfl rfl
      | saving s => cases hs
      | done => cases hs
  | save i copied =>
    simp only [step] at hs
    split at hs
    · rename_i s must may hpc hw
      split at hs
      · rename_i hc
        simp only [Out.ok.injEq] at hs
        subst hs
        refine ⟨fun x hx => inv.win must may hw x (hc.2.1 x (List.mem_reverse.1 hx)), ?_⟩
        intro m m' h; cases h
      · cases hs
    · cases hs
  | malloc w r a | free s =>
    simp only [step] at hs
    split at hs
    · simp only [Out.ok.injEq] at hs
      subst hs
      exact same rfl rfl rfl
    · cases hs
  | start tok =>
    simp only [step] at hs
    split at hs
    · simp only [Out.ok.injEq] at hs
      subst hs
      exact seen_mono inv rfl rfl (fun x hx => samplesOf_cons hx)
    · cases hs
  | dump =>
    simp only [step] at hs
    split at hs
    · cases hs
    · simp only [Out.ok.injEq] at hs
      subst hs
      exact seen_mono inv rfl rfl (fun x hx => samplesOf_cons hx)
  | stop tok | drop tok =>
    simp only [step] at hs
    split at hs
    · split at hs
      · cases hs
      · simp only [Out.ok.injEq] at hs
        subst hs
        exact seen_mono inv rfl rfl (fun x hx => samplesOf_cons hx)
    · simp only [Out.ok.injEq] at hs
      subst hs
      exact seen_mono inv rfl rfl (fun x hx => samplesOf_cons hx)
    · cases hs

/-- C68 (what holds).  Whatever overlaps, the saved peak only holds samples that were taken. -/
theorem peak_genuine {A : Arith} {σ : State} (h : Reach A σ) :
    ∀ x ∈ σ.peak, x ∈ samplesOf σ.trace := by
  have : Seen σ := by
    induction h with
    | init =>
      refine ⟨(fun x hx => by cases hx), ?_⟩
      intro m m' h; cases h
    | step hr hs ih => exact seen_step (reach_acc hr) ih hs
  exact this.peak

/-- A step adds at most one event, and what it dumps is the saved peak. -/
theorem step_trace {A : Arith} {σ τ : State} {c : Cmd} (hs : step A σ c = .ok τ) :
    τ.trace = σ.trace ∨
      ∃ e, τ.trace = e :: σ.trace ∧ ∀ l, e = .dumped l → l = σ.peak.reverse := by
  unfold step at hs
  cases c with
  | go i =>
    dsimp only at hs
    split at hs
    · cases hs
    · rename_i pc _
      cases pc <;> simp only [goStep] at hs <;> (repeat' split at hs) <;>
        first
        | cases hs
          done
        | cases hs
          first
          | exact .inl rfl
          | exact .inr ⟨_, rfl, by intro l h; cases h <;> rfl⟩
  | _ =>
    dsimp only at hs
    repeat' split at hs
    all_goals
      first
      | cases hs
        done
      | cases hs
        first
        | exact .inl rfl
        | exact .inr ⟨_, rfl, by intro l h; cases h <;> rfl⟩

/-- The call holds the lock of the peak. -/
def inLock : Pc → Nat
  | .holding _ | .locked _ | .readSize _ _ | .saving _ => 1
  | _ => 0

/-- C68 (what holds).  At most one call at a time replaces the peak, and the lock is free when no
call is in flight, so that a profile can be taken. -/
theorem lock_exact {A : Arith} {σ : State} (h : Reach A σ) :
    (σ.calls.map inLock).sum = if σ.lock then 1 else 0 := by
  induction h with
  | init => rfl
  | @step σ c τ hr hs ih =>
    unfold step at hs
    cases c with
    | go i =>
      dsimp only at hs
      split at hs
      · cases hs
      · rename_i pc hi
        have hle := sum_le inLock _ _ _ hi
        rw [ih] at hle
        have key : ∀ (q : Pc) (b : Bool), inLock q + (if σ.lock then 1 else 0) =
            inLock pc + (if b then 1 else 0) →
            ((σ.calls.set i q).map inLock).sum = if b then 1 else 0 := by
          intro q b hb
          have := sum_set inLock _ _ _ q hi
          omega
        cases pc <;> simp only [goStep] at hs <;> (repeat' split at hs) <;>
          first
          | cases hs
            done
          | cases hs
            refine key _ _ ?_
            cases hl : σ.lock <;> simp_all [inLock, State.ret]
    | save i copied =>
      dsimp only at hs
      split at hs
      · rename_i hi _
        have key := sum_set inLock _ _ _ .done hi
        split at hs
        · cases hs
          have := key
          simp only [inLock] at this
          show ((σ.calls.set i .done).map inLock).sum = 0
          split at ih <;> omega
        · cases hs
      · cases hs
    | _ =>
      dsimp only at hs
      repeat' split at hs
      all_goals
        first
        | cases hs
          done
        | cases hs
          simpa [inLock] using ih

/-- C68 (what holds).  Every peak heap profile that is taken lists only samples that were taken
before. -/
theorem dump_genuine {A : Arith} {σ : State} (h : Reach A σ) : ∀ {newer older : List Ev}
    {l : List Sample}, σ.trace = newer ++ .dumped l :: older → ∀ x ∈ l, x ∈ samplesOf older := by
  induction h with
  | init =>
    intro newer older l ht
    simp [init] at ht
  | @step σ c τ hr hs ih =>
    intro newer older l ht
    rcases step_trace hs with h1 | ⟨e, h1, h2⟩
    · exact ih (h1 ▸ ht)
    · rw [h1] at ht
      cases newer with
      | nil =>
        simp only [List.nil_append, List.cons.injEq] at ht
        obtain ⟨rfl, rfl⟩ := ht
        intro x hx
        rw [h2 l rfl] at hx
        exact peak_genuine hr x (List.mem_reverse.1 hx)
      | cons e' newer =>
        simp only [List.cons_append, List.cons.injEq] at ht
        exact ih ht.2

/-- The hypothesis on the comparison holds of exact arithmetic with a growth fraction of at least
one. -/
theorem exact_sane {num den : Nat} (h : den ≤ num) (h0 : 0 < num) : Sane (exact num den) where
  on := by simp [exact, h0]
  grows := by
    intro v p hp hn
    simp only [exact, decide_eq_true_eq] at hn
    apply Classical.byContradiction
    intro hvp
    have h1 : v * (den : Int) ≤ p * den := Int.mul_le_mul_of_nonneg_right (by omega) (by omega)
    have h2 : p * (den : Int) ≤ p * num := Int.mul_le_mul_of_nonneg_left (by omega) hp
    omega
  mono := by
    intro v v' p hv hn
    simp only [exact, decide_eq_false_iff_not] at hn ⊢
    have h1 : v' * (den : Int) ≤ v * den := Int.mul_le_mul_of_nonneg_right hv (by omega)
    omega

/-! ### Concrete histories -/

def run (A : Arith) : State → List Cmd → Option State
  | σ, [] => some σ
  | σ, c :: l =>
    match step A σ c with
    | .ok τ => run A τ l
    | _ => none

theorem run_reach {A : Arith} : ∀ {l : List Cmd} {σ τ : State}, Reach A σ → run A σ l = some τ →
    Reach A τ
  | [], σ, τ, h, hr => by
    simp only [run, Option.some.injEq] at hr
    exact hr ▸ h
  | c :: l, σ, τ, h, hr => by
    simp only [run] at hr
    split at hr
    · rename_i τ' hs
      exact run_reach (.step h hs) hr
    · cases hr

def quietB (σ : State) : Bool := σ.calls.all (· == .done)

theorem quietB_ok {σ : State} (h : quietB σ = true) : Quiet σ := by
  unfold quietB at h
  rw [List.all_eq_true] at h
  exact fun pc hpc => by simpa using h pc hpc

def begins : Cmd → Bool
  | .malloc .. => true
  | .free _ => true
  | _ => false

/-- A run in which calls do not overlap. -/
def runSeq (A : Arith) : State → List Cmd → Option State
  | σ, [] => some σ
  | σ, c :: l =>
    if begins c = false ∨ quietB σ = true then
      match step A σ c with
      | .ok τ => runSeq A τ l
      | _ => none
    else none

theorem runSeq_seq {A : Arith} : ∀ {l : List Cmd} {σ τ : State}, Seq A σ →
    runSeq A σ l = some τ → Seq A τ
  | [], σ, τ, h, hr => by
    simp only [runSeq, Option.some.injEq] at hr
    exact hr ▸ h
  | c :: l, σ, τ, h, hr => by
    simp only [runSeq] at hr
    split at hr
    · rename_i hf
      split at hr
      · rename_i τ' hs
        refine runSeq_seq (.step h hs ?_ ?_) hr
        · intro w r a hc
          subst hc
          simp only [begins, Bool.true_eq_false, false_or] at hf
          exact quietB_ok hf
        · intro s hc
          subst hc
          simp only [begins, Bool.true_eq_false, false_or] at hf
          exact quietB_ok hf
      · cases hr
    · cases hr

def gos (i n : Nat) : List Cmd := List.replicate n (.go i)

/-- A block whose size and waste are both estimated as `w`. -/
def smp (h w : Nat) : Sample := ⟨h, w, 0, 1⟩

/-- Growth by more than a tenth makes a new peak. -/
def tenth : Arith := exact 11 10

/-- Two overlapping profiles, two samples, one of them freed, and a saved peak. -/
def story : List Cmd :=
  [.start 7, .malloc 100 0 1] ++ gos 0 10 ++ [.save 0 [smp 1 100], .start 8, .malloc 50 0 1] ++
  gos 1 10 ++ [.save 1 [smp 2 50, smp 1 100], .stop 7, .free (smp 1 100)] ++ gos 2 2 ++
  [.stop 8, .stop 8, .dump]

theorem story_run : ((runSeq tenth init story).map fun σ =>
    (quietB σ, σ.size, σ.frag, σ.owned, σ.peakSize)) =
      some (true, 50, 50, [smp 2 50], 150) ∧
    ((runSeq tenth init story).map fun σ => σ.trace.take 4) =
      some [.dumped [smp 2 50, smp 1 100], .stopped 8 none, .stopped 8 (some [smp 2 50]),
        .stopped 7 (some [smp 2 50, smp 1 100])] := by
  constructor <;> decide +kernel

/-- The hypotheses of the theorems above are met by that history. -/
theorem story_meets : ∃ σ, Seq tenth σ ∧ Quiet σ ∧ σ.peakSize = 150 ∧ σ.owned = [smp 2 50] := by
  have h := story_run.1
  cases hr : runSeq tenth init story with
  | none => rw [hr] at h; cases h
  | some σ =>
    rw [hr] at h
    simp only [Option.map_some, Option.some.injEq, Prod.mk.injEq] at h
    exact ⟨σ, runSeq_seq .init hr, quietB_ok h.1, h.2.2.2.2, h.2.2.2.1⟩

example : Sane tenth := exact_sane (by omega) (by omega)

/-! ### What fails when calls overlap -/

/-- A peak of 100 is saved.  An allocation brings the heap to 150 and finds that this is a new peak;
before it reads the size again the first block is freed, so it saves a peak of 50. -/
def shrink : List Cmd :=
  [.malloc 100 0 1] ++ gos 0 10 ++ [.save 0 [smp 1 100], .malloc 50 0 1] ++ gos 1 8 ++
  [.free (smp 1 100)] ++ gos 2 2

theorem shrink_run :
    ((run tenth init shrink).map fun σ => (σ.peakSize, σ.peak)) = some (100, [smp 1 100]) ∧
    ((run tenth init (shrink ++ gos 1 2 ++ [.save 1 [smp 2 50]])).map fun σ =>
      (quietB σ, σ.peakSize, σ.peak)) = some (true, 50, [smp 2 50]) := by decide +kernel

/-- The full C68 is false: overlapping calls can replace a saved peak by a smaller one. -/
theorem peak_can_shrink : ∃ σ τ l, Reach tenth σ ∧ run tenth σ l = some τ ∧ Quiet τ ∧
    total tenth.bytes σ.peak = 100 ∧ total tenth.bytes τ.peak = 50 := by
  obtain ⟨h1, h2⟩ := shrink_run
  cases hr : run tenth init shrink with
  | none => rw [hr] at h1; cases h1
  | some σ =>
    rw [hr] at h1
    simp only [Option.map_some, Option.some.injEq, Prod.mk.injEq] at h1
    have happ : ∀ (l l' : List Cmd) (σ : State), run tenth σ (l ++ l') =
        (run tenth σ l).bind fun τ => run tenth τ l' := by
      intro l l'
      induction l with
      | nil => intro σ; rfl
      | cons c l ih =>
        intro σ
        simp only [List.cons_append, run]
        split
        · exact ih _
        · rfl
    rw [List.append_assoc, happ, hr, Option.bind_some] at h2
    cases hr2 : run tenth σ (gos 1 2 ++ [.save 1 [smp 2 50]]) with
    | none => rw [hr2] at h2; cases h2
    | some τ =>
      rw [hr2] at h2
      simp only [Option.map_some, Option.some.injEq, Prod.mk.injEq] at h2
      refine ⟨σ, τ, _, run_reach .init hr, hr2, quietB_ok h2.1, ?_, ?_⟩
      · rw [h1.2]; decide +kernel
      · rw [h2.2.2]; decide +kernel

/-- Nor is the heap within the growth fraction of the recorded peak once all calls have returned,
and the saved samples need not add up to it: as before, but before the smaller size is stored a
third allocation compares itself with the old peak and is no new one. -/
theorem peak_can_be_stale : ∃ σ, Reach tenth σ ∧ Quiet σ ∧ tenth.newPeak σ.size σ.peakSize = true ∧
    (total tenth.bytes σ.peak : Int) ≠ σ.peakSize := by
  have h : ((run tenth init (([.malloc 100 0 1] ++ gos 0 10 ++ [.save 0 [smp 1 100],
      .malloc 50 0 1] ++ gos 1 8 ++ [.free (smp 1 100)] ++ gos 2 2 ++ gos 1 1 ++
      [.malloc 55 0 1] ++ gos 3 6 ++ gos 1 1 ++ [.save 1 [smp 3 55, smp 2 50]]))).map fun σ =>
      (quietB σ, σ.size, σ.peakSize, total tenth.bytes σ.peak)) = some (true, 105, 50, 105) := by
    decide +kernel
  cases hr : run tenth init ([.malloc 100 0 1] ++ gos 0 10 ++ [.save 0 [smp 1 100],
      .malloc 50 0 1] ++ gos 1 8 ++ [.free (smp 1 100)] ++ gos 2 2 ++ gos 1 1 ++
      [.malloc 55 0 1] ++ gos 3 6 ++ gos 1 1 ++ [.save 1 [smp 3 55, smp 2 50]]) with
  | none => rw [hr] at h; cases h
  | some σ =>
    rw [hr] at h
    simp only [Option.map_some, Option.some.injEq, Prod.mk.injEq] at h
    refine ⟨σ, run_reach .init hr, quietB_ok h.1, ?_, ?_⟩
    · rw [h.2.1, h.2.2.1]; decide +kernel
    · rw [h.2.2.2, h.2.2.1]; decide

/-- A sampled block much larger than its weight is listed with a count and total of zero. -/
theorem entry_zero : entrySum ⟨1, 2306867, 20971520, 20971520⟩ = 0 := by decide +kernel

end Verif.Sampling
