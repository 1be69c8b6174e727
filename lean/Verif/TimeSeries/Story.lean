import Verif.TimeSeries.Corr
/-! Histories that meet the hypotheses of the theorems about time series. -/
namespace Verif.TimeSeries
variable {T S : Type}

/-- Epochs of ten ticks. -/
theorem ten_good : GoodTicks 10 := by
  refine ⟨by decide, by decide, fun i => ?_⟩
  rcases Nat.lt_or_ge i 4 with h | h
  · have : i = 0 ∨ i = 1 ∨ i = 2 ∨ i = 3 := by omega
    rcases this with rfl | rfl | rfl | rfl <;> decide
  · have := Nat.pow_le_pow_right (n := 2) (by decide) h
    omega

/-- Reports at these ticks. -/
def play (K d : Nat) (ops : Ops T S) : Tr T × Log S → List (Nat × S) → Option (Tr T × Log S)
  | x, [] => some x
  | (s, l), (t, v) :: r =>
    if t < 2 ^ 63 then
      match report K ops s (currentEpoch d t) v with
      | none => none
      | some (_, s') => play K d ops (s', push l (t / d, some v)) r
    else none

theorem play_reach {K d : Nat} {ops : Ops T S} : ∀ (xs : List (Nat × S)) {s : Tr T} {l : Log S} {y : Tr T × Log S},
    Reach K d ops s l → play K d ops (s, l) xs = some y → Reach K d ops y.1 y.2
  | [], s, l, y, h, hp => by cases hp; exact h
  | (t, v) :: r, s, l, y, h, hp => by
    unfold play at hp
    split at hp
    · rename_i ht
      split at hp
      · cases hp
      · rename_i b s' hr
        exact play_reach r (h.report ht hr) hp
    · cases hp

def played (K d : Nat) (ops : Ops T S) (t0 : Nat) (xs : List (Nat × S)) : Option (Tr T × Log S) :=
  play K d ops (init ops (currentEpoch d t0), [(t0 / d, none)]) xs

theorem get_reach {K d : Nat} {ops : Ops T S} {t0 : Nat} (h0 : t0 < 2 ^ 63) {xs : List (Nat × S)} (h : (played K d ops t0 xs).isSome = true) :
    Reach K d ops ((played K d ops t0 xs).get h).1 ((played K d ops t0 xs).get h).2 :=
  play_reach xs (.init h0) (show played K d ops t0 xs = _ by rw [Option.some_get])

/-! ### Extremes -/

/-- Three slots: the reports of the epochs 1, 2, 4 (twice) and 6. -/
def usage : List (Nat × Nat) := [(13, 50), (25, 9), (41, 7), (49, 20), (60, 12)]

theorem usage_ok : (played 3 10 exOps 5 usage).isSome = true := by decide +kernel

/-- The last three epochs (4, 5, 6): between 7 and 20.  The last one: 12. -/
example : maxOverTime 3 10 ((played 3 10 exOps 5 usage).get usage_ok).1 (some 30) = some 20 ∧
    minOverTime 3 10 ((played 3 10 exOps 5 usage).get usage_ok).1 (some 30) = some 7 ∧
    maxOverTime 3 10 ((played 3 10 exOps 5 usage).get usage_ok).1 (some 10) = some 12 ∧
    minOverTime 3 10 ((played 3 10 exOps 5 usage).get usage_ok).1 (some 10) = some 12 := by decide +kernel

example : ∃ (s : Tr Extrema) (l : Log Nat), Reach 3 10 exOps s l ∧ ceilDiv 30 10 ≤ 3 ∧ (∀ e v, (e, some v) ∈ l → v < 2 ^ 64 - 1) ∧
    InWindow l 3 20 ∧ ¬ InWindow l 3 50 :=
  ⟨_, _, get_reach (by decide) usage_ok, by decide, by
    have e : ((played 3 10 exOps 5 usage).get usage_ok).2 = [(6, some 12), (4, some 20), (4, some 7), (2, some 9), (1, some 50), (0, none)] := by
      decide +kernel
    rw [e]
    refine ⟨?_, ⟨4, by decide, by decide⟩, ?_⟩
    · intro e v h; simp at h; omega
    · rintro ⟨e, h, h'⟩
      simp at h
      subst h
      exact absurd h' (by decide)⟩

/-- If the clock goes back, the past is forgotten. -/
def back : List (Nat × Nat) := [(13, 50), (25, 9), (11, 4)]
theorem back_ok : (played 3 10 exOps 5 back).isSome = true := by decide +kernel
example : maxOverTime 3 10 ((played 3 10 exOps 5 back).get back_ok).1 (some 30) = some 4 := by decide +kernel

/-! ### Demand -/

def st (n f : Nat) : Stats := ⟨n, f, 0, 0⟩
def demand : List (Nat × Stats) := [(13, st 90 5), (25, st 40 10), (27, st 70 3), (31, st 60 8), (35, st 50 9)]
theorem demand_ok : (played 4 10 sOps 5 demand).isSome = true := by decide +kernel

/-- The peak of two epochs is 70; the fluctuation of the last epoch is 10, and the largest minimum of the last two is 50. -/
example : demandPeak 4 10 ((played 4 10 sOps 5 demand).get demand_ok).1 (some 20) = some 70 ∧
    demandPeak 4 10 ((played 4 10 sOps 5 demand).get demand_ok).1 (some 40) = some 90 ∧
    demandTrend 4 10 40 ((played 4 10 sOps 5 demand).get demand_ok).1 10 20 = some 60 ∧
    recentDemand 4 10 40 20 ((played 4 10 sOps 5 demand).get demand_ok).1 20 40 = some 70 ∧
    minFreePages 4 10 ((played 4 10 sOps 5 demand).get demand_ok).1 20 = some (3, 3) := by decide +kernel

example : ∃ (s : Tr SEntry) (l : Log Stats), Reach 4 10 sOps s l ∧ (∀ e v, (e, some v) ∈ l → v.OK) ∧ ceilDiv 40 10 ≤ 4 ∧
    InWindow l 2 (st 70 3) :=
  ⟨_, _, get_reach (by decide) demand_ok, by
    have e : ((played 4 10 sOps 5 demand).get demand_ok).2 = [(3, some (st 50 9)), (3, some (st 60 8)), (2, some (st 70 3)),
      (2, some (st 40 10)), (1, some (st 90 5)), (0, none)] := by decide +kernel
    rw [e]
    refine ⟨?_, by decide, ⟨2, by decide, by decide⟩⟩
    intro e v h
    simp only [List.mem_cons, Prod.mk.injEq, Option.some.injEq, reduceCtorEq, and_false, List.not_mem_nil, or_false] at h
    unfold Stats.OK
    rcases h with ⟨-, rfl⟩ | ⟨-, rfl⟩ | ⟨-, rfl⟩ | ⟨-, rfl⟩ | ⟨-, rfl⟩ <;> decide⟩

/-- With 50 pages used and 9 free, a requirement of 55 lets 4 pages go, and 2 of the 6 asked for are skipped. -/
example : desiredPages 50 9 6 0 55 = some (4, some (2, 55)) := by decide

/-! ### Skipped releases -/

def subRun (K len summary : Nat) : Sub × List CEv → List (Nat × Nat × Option (Nat × Nat) × Stats) → Option (Sub × List CEv)
  | x, [] => some x
  | (s, l), (e, _, some (n, p), _) :: r =>
    match Sub.skipped K s e n p with
    | none => none
    | some s' => subRun K len summary (s', if n = 0 then l else l ++ [.skipped e n p]) r
  | (s, l), (e, e', none, v) :: r =>
    match Sub.report K len summary s e e' v with
    | none => none
    | some s' => subRun K len summary (s', l) r

theorem subRun_reach {K len summary : Nat} : ∀ (xs : List (Nat × Nat × Option (Nat × Nat) × Stats)) {s : Sub} {l : List CEv} {y : Sub × List CEv},
    SubReach K len summary s l → subRun K len summary (s, l) xs = some y → SubReach K len summary y.1 y.2
  | [], s, l, y, h, hp => by cases hp; exact h
  | (e, e', some (n, p), v) :: r, s, l, y, h, hp => by
    unfold subRun at hp
    split at hp
    · cases hp
    · rename_i s' hr
      exact subRun_reach r (h.skipped hr) hp
  | (e, e', none, v) :: r, s, l, y, h, hp => by
    unfold subRun at hp
    split at hp
    · cases hp
    · rename_i s' hr
      exact subRun_reach r (h.report hr) hp

def subPlayed (xs : List (Nat × Nat × Option (Nat × Nat) × Stats)) : Option (Sub × List CEv) :=
  subRun 6 10 30 (⟨init sOps 0, Corr.init 0⟩, []) xs

theorem sub_reach {xs} (h : (subPlayed xs).isSome = true) : SubReach 6 10 30 ((subPlayed xs).get h).1 ((subPlayed xs).get h).2 :=
  subRun_reach xs (.init (e := 0) (e' := 0)) (show subPlayed xs = _ by rw [Option.some_get])

def skip (e n p : Nat) : Nat × Nat × Option (Nat × Nat) × Stats := (e, e, some (n, p), st 0 0)
def rep (e e' n : Nat) : Nat × Nat × Option (Nat × Nat) × Stats := (e, e', none, st n 9)

/-- Five pages are not released in epoch 1, because of a peak of 50; two in epoch 2, because of one of 70.  In epoch 3, 60 pages are
used: the first decision was right, and the second is pending; in epoch 4 it is 65, and the first is not counted again. -/
def confirm := [rep 1 1 40, skip 1 5 50, rep 2 2 40, skip 2 2 70, rep 3 3 60, rep 4 4 65]
theorem confirm_ok : (subPlayed confirm).isSome = true := by decide +kernel
example : (((subPlayed confirm).get confirm_ok).1.corr.total, ((subPlayed confirm).get confirm_ok).1.corr.correct,
    ((subPlayed confirm).get confirm_ok).1.corr.pending) = ((⟨7, 2⟩, ⟨5, 1⟩, ⟨2, 1⟩) : Dec × Dec × Dec) := by decide +kernel

/-- A finding: if the clock enters epoch 2 between the report and the decision, `last_confirmed_peak_` keeps the value of epoch 1
(100), as only `ReportUpdatedPeak` resets it.  The decision of epoch 1, made for a peak of 50 after that, is not counted
as correct when 60 pages are used in epoch 2, and is not pending either. -/
def stale := [skip 0 1 7, rep 1 1 100, skip 1 5 50, rep 1 1 10, skip 2 1 10, rep 2 2 60]
theorem stale_ok : (subPlayed stale).isSome = true := by decide +kernel
theorem stale_peak_loses_decision : ((((subPlayed stale).get stale_ok).1.corr.total, ((subPlayed stale).get stale_ok).1.corr.correct,
    ((subPlayed stale).get stale_ok).1.corr.pending) = ((⟨7, 3⟩, ⟨1, 1⟩, ⟨0, 0⟩) : Dec × Dec × Dec)) ∧
    SubReach 6 10 30 ((subPlayed stale).get stale_ok).1 ((subPlayed stale).get stale_ok).2 :=
  ⟨by decide +kernel, sub_reach stale_ok⟩

/-- Without that (the decision of epoch 2 made after a report in epoch 2) it is counted. -/
def fresh := [skip 0 1 7, rep 1 1 100, skip 1 5 50, rep 1 1 10, rep 2 2 60]
theorem fresh_ok : (subPlayed fresh).isSome = true := by decide +kernel
example : (((subPlayed fresh).get fresh_ok).1.corr.correct, ((subPlayed fresh).get fresh_ok).1.corr.pending) =
    ((⟨6, 2⟩, ⟨0, 0⟩) : Dec × Dec) := by decide +kernel
end Verif.TimeSeries
