import Verif.Sampler.Props
/-! Concrete histories for the theorems of Props.lean. -/
namespace Verif.Sampler

/-- Everything read in a call is the interval `T`; the numbers drawn are `a` and `b`. -/
def rd (T : Int) (a b : Nat) : Reads := ⟨⟨T, a⟩, ⟨T, b⟩, T⟩

def Pick.okB (p : Pick) : Bool := decide (-2 ^ 63 ≤ p.interval) && decide (p.interval < 2 ^ 63) && decide (p.draw < 2 ^ 63)

def Ev.okB (e : Ev) : Bool :=
  decide (e.k < 2 ^ 64) && (e.large || decide (e.k ≤ 2 ^ 18)) && e.reads.first.okB && e.reads.next.okB

theorem Pick.okB_ok {p : Pick} (h : p.okB = true) : p.OK := by
  simp only [Pick.okB, Bool.and_eq_true, decide_eq_true_eq] at h
  exact ⟨h.1.1, h.1.2, h.2⟩

theorem Ev.okB_ok {e : Ev} (h : e.okB = true) : e.OK := by
  simp only [Ev.okB, Bool.and_eq_true, Bool.or_eq_true, decide_eq_true_eq] at h
  exact ⟨h.1.1.1, fun hl => by rcases h.1.1.2 with h1 | h1 <;> simp_all, ⟨Pick.okB_ok h.1.2, Pick.okB_ok h.2⟩⟩

theorem all_ok {es : List Ev} (h : es.all Ev.okB = true) : ∀ e ∈ es, e.OK :=
  fun e he => Ev.okB_ok (List.all_eq_true.1 h e he)

theorem run_reach {es : List Ev} : ∀ {s s' : S} {ws}, (∀ e ∈ es, e.OK) → Reach s → run s es = some (ws, s') → Reach s' := by
  induction es with
  | nil => intro s s' ws _ h hr; cases hr; exact h
  | cons x l ih =>
    intro s s' ws hx h hr
    unfold run at hr
    split at hr
    · cases hr
    · rename_i w s3 h3
      simp only [Option.map_eq_some_iff, Prod.mk.injEq] at hr
      obtain ⟨⟨ws1, s4⟩, h4, -, rfl⟩ := hr
      exact ih (fun y hy => hx y (List.mem_cons_of_mem _ hy)) (h.step (hx x (List.mem_cons_self ..)) h3) h4

/-- Small and large allocations with an interval of 1000; 1500 is drawn first, then 300. -/
def evs : List Ev :=
  [⟨99, false, false, rd 1000 1500 0⟩, ⟨399, false, true, rd 1000 0 0⟩, ⟨0, false, false, rd 1000 0 0⟩,
   ⟨500000, true, false, rd 1000 0 300⟩, ⟨299, false, true, rd 1000 0 2000⟩, ⟨19, false, true, rd 1000 0 0⟩]

-- the fourth allocation contains byte 1500 of the stream, the fifth is exactly long enough to contain byte 300
example : (run S.init evs).map Prod.fst = some [0, 0, 0, 500002, 1000, 0] := by decide +kernel
example : ∃ s, run S.init evs = some (((firstMark evs).run evs).1, s) :=
  sampled_exactly (all_ok (by decide +kernel))
    (by intro e he; simp only [evs, List.mem_cons, List.not_mem_nil, or_false] at he
        rcases he with rfl | rfl | rfl | rfl | rfl | rfl <;> exact ⟨by decide, by decide⟩)
    (by intro e he; simp only [evs, List.mem_cons, List.not_mem_nil, or_false] at he
        rcases he with rfl | rfl | rfl | rfl | rfl | rfl <;> decide)
example : ((firstMark evs).run evs).1 = [0, 0, 0, 500002, 1000, 0] := by decide +kernel

-- `weights_account_for_bytes`: 500002 + 1000, and 20 bytes pending, are the 500822 bytes and 1000 - 1500 + 1000 - 300
example : bytes evs = 500822 ∧ (firstMark evs).luck evs = 200 ∧ ((firstMark evs).run evs).2.taken = 20 := by decide +kernel
example : AllIntervals (0 < ·) evs := by
  intro e he; simp only [evs, List.mem_cons, List.not_mem_nil, or_false] at he
  rcases he with rfl | rfl | rfl | rfl | rfl | rfl <;> decide

-- `interval_one_samples_all`
def ones : List Ev := [⟨99, false, true, rd 1 7 8⟩, ⟨0, false, true, rd 1 7 8⟩, ⟨5000000, true, true, rd 1 9 9⟩]
example : (run S.init ones).map Prod.fst = some [100, 1, 5000001] := by decide +kernel

/-- The sampler after the first two allocations. -/
def s2 : S := ⟨1000, true, 999⟩
theorem s2_run : run S.init (evs.take 2) = some ([0, 0], s2) := by decide +kernel
theorem s2_reach : Reach s2 := run_reach (all_ok (by decide +kernel)) .init s2_run

-- `prediction`, `fast_slow_agree` and `calls_succeed` at this sampler
example : willRecord s2 998 = false ∧ willRecord s2 999 = true := by decide +kernel
example : recordAllocation s2 999 (rd 1000 0 64) = some (1000, ⟨1000, true, 63⟩) := by decide +kernel
example : smallAlloc s2 999 true (rd 1000 0 64) = some (1000, ⟨1000, true, 63⟩) := by decide +kernel
example : smallAlloc s2 998 false (rd 1000 0 64) = some (0, ⟨1000, true, 0⟩) := by decide +kernel

-- `back_within`: sampling is off at first, and 128 MiB later the interval of 1000 is noticed
def off : S := ⟨0, true, 2 ^ 27 - 1⟩
theorem off_run : run S.init [⟨0, false, true, rd 0 0 0⟩] = some ([0], off) := by decide +kernel
theorem off_reach : Reach off := run_reach (all_ok (by decide +kernel)) .init off_run
theorem off_rel : Rel off ⟨0, 128 * 2 ^ 20 + 1, 1⟩ := ⟨rfl, rfl, by decide⟩
example : run off [⟨2 ^ 26, true, false, rd 1000 0 0⟩, ⟨2 ^ 26, true, false, rd 1000 0 17⟩]
    = some ([0, 2], ⟨1000, true, 16⟩) := by decide +kernel

-- `first_huge_request_stops_sampling`: a thread starts with `malloc(2^63 + 2^40)`, which cannot succeed; 2^60 bytes
-- allocated afterwards are not sampled although the interval is 512 KiB
example : run S.init [⟨2 ^ 63 + 2 ^ 40, true, false, rd 524288 700000 0⟩, ⟨2 ^ 60, true, false, rd 524288 0 0⟩]
    = some ([0, 0], ⟨524288, true, 2 ^ 63 + 699999 - (2 ^ 40 + 1) - (2 ^ 60 + 1)⟩) := by decide +kernel

/-- The hypothesis that no interval is negative cannot be dropped: if sampling was turned off with the interval -100 and
turned on again, the allocation that reaches the mark may be given a weight near 2^64. -/
theorem negative_interval_weight :
    run S.init [⟨0, false, true, rd (-100) 0 0⟩, ⟨2 ^ 27 - 1, true, false, rd 1000 0 5⟩]
      = some ([0, 2 ^ 64 - 100], ⟨1000, true, 4⟩) := by decide +kernel

-- `signed_overflow`
example : largeAlloc s2 (2 ^ 63 + 999) (rd 1000 0 0) = none := by decide +kernel
example : largeAlloc s2 (2 ^ 63 + 999) (rd 1000 0 0) = none := signed_overflow s2_reach rfl (by decide)

end Verif.Sampler
