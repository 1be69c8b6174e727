import Verif.StackFilter.Props
/-! Concrete histories for the theorems of Props.lean. -/
namespace Verif.StackFilter

/-- The filter of the guarded page allocator (guarded_page_allocator.h:284), with some hash function. -/
def gpa : Cfg := ⟨512 * 3, 2, 32, fun h => h * 31 + 7⟩

theorem gpa_ok : gpa.OK := ⟨by decide, by decide, by decide, ⟨2 ^ 59, by decide⟩⟩

/-- At most 512 guarded allocations exist at a time: the counters cannot overflow. -/
theorem gpa_capacity {n : Nat} (h : n ≤ 512) : (n + gpa.steps) * gpa.hashNum < 65536 := by
  show (n + 32) * 2 < 65536
  omega

def preB (out : List Nat) : Ev → Bool
  | .add h v => decide (v < 0 → (-v).toNat ≤ out.count h)
  | _ => true

theorem preB_ok {out : List Nat} {e : Ev} (h : preB out e = true) : Pre out e := by
  cases e with
  | add h v => simp only [preB, decide_eq_true_eq] at h; exact h
  | decay => trivial
  | decayAll => trivial
  | run i => trivial

def runAll (c : Cfg) (s : S) (out : List Nat) : List Ev → Option (S × List Nat)
  | [] => some (s, out)
  | e :: es =>
    if preB out e then
      match step c s e with
      | none => none
      | some s' => runAll c s' (out' out e) es
    else none

theorem runAll_reach {c : Cfg} {es : List Ev} : ∀ {s out r}, Reach c s out → runAll c s out es = some r → Reach c r.1 r.2 := by
  induction es with
  | nil => intro s out r hr h; cases h; exact hr
  | cons e es ih =>
    intro s out r hr h
    unfold runAll at h
    split at h
    · rename_i hp
      split at h
      · cases h
      · rename_i s1 hs
        exact ih (Reach.step hr (preB_ok hp) hs) h
    · cases h

/-- Two additions of different stacks interleaved, and the removal of one. -/
def evs : List Ev :=
  [.add 5 1, .add 9 1, .run 0, .run 1, .run 1, .run 0, .run 0, .run 1, .run 0, .run 1, .add 9 (-1), .run 2, .run 2]

def r1 := runAll gpa (S.init gpa) [] evs
theorem r1_some : r1.isSome = true := by decide +kernel
def mid := r1.get r1_some
theorem mid_reach : Reach gpa mid.1 mid.2 :=
  runAll_reach Reach.init (show r1 = some mid by unfold mid; exact (Option.some_get _).symm)
theorem mid_out : mid.2 = [5] := by decide +kernel
theorem mid_quiet : Quiet mid.1 := by
  have : mid.1.calls = [[], [], []] := by decide +kernel
  unfold Quiet; rw [this]; decide

-- `tracked_found`: 5 is outstanding, 9 only recent; 11 was never added
example : contains gpa mid.1 5 = true ∧ contains gpa mid.1 11 = false := by decide +kernel
example : contains gpa mid.1 9 = true :=
  tracked_found gpa_ok mid_reach mid_quiet (gpa_capacity (by rw [mid_out]; decide))
    (Or.inr ⟨by have : mid.1.ring[1]? = some 9 := by decide +kernel
                exact List.mem_of_getElem? this, by decide⟩)

/-- The remaining stack is removed as well. -/
def evs2 : List Ev := evs ++ [.add 5 (-1), .run 3, .run 3]
def r2 := runAll gpa (S.init gpa) [] evs2
theorem r2_some : r2.isSome = true := by decide +kernel
def late := r2.get r2_some
theorem late_reach : Reach gpa late.1 late.2 :=
  runAll_reach Reach.init (show r2 = some late by unfold late; exact (Option.some_get _).symm)
theorem late_out : late.2 = [] := by decide +kernel
theorem late_quiet : Quiet late.1 := by
  have : late.1.calls = [[], [], [], []] := by decide +kernel
  unfold Quiet; rw [this]; decide

-- `decayAll_forgets`, `empty_forgets`: before, 5 is still contained as a recent stack
example : contains gpa late.1 5 = true := by decide +kernel
example : contains gpa (runCall gpa 200 late.1 (decayAllCall gpa)) 5 = false :=
  decayAll_forgets gpa_ok (late_out ▸ late_reach) late_quiet (by decide) 5
-- `recent_found`
example : contains gpa (addAll gpa 6 mid.1 [3, 4]) 3 = true :=
  recent_found gpa_ok mid_reach mid_quiet (by decide) (by decide) (by rw [mid_out]; decide) (by decide) (by decide)

/-! ### While calls are in progress, a stack may be missed -/

/-- One uninterrupted addition as call number `i`. -/
def oneAdd (i h : Nat) (k : Nat) : List Ev := .add h 1 :: List.replicate k (.run i)

/-- The stack 5 is added, completely; a second addition of it stops before its counters; then 32 other additions complete. -/
def missEvs : List Ev :=
  oneAdd 0 5 4 ++ (.add 5 1 :: List.replicate 2 (.run 1)) ++
  (List.range 30).flatMap (fun i => oneAdd (i + 2) 9 4) ++ oneAdd 32 9 6 ++ oneAdd 33 9 6

theorem miss_some : (runAll gpa (S.init gpa) [] missEvs).isSome = true := by decide +kernel
def miss := (runAll gpa (S.init gpa) [] missEvs).get miss_some

/-- A stack added by a finished call and never removed is not contained for a moment, while another addition of the same
stack is in progress: its entry in the ring can be decayed before its own counters were incremented. -/
theorem transient_miss : ∃ s out, Reach gpa s out ∧ out.count 5 = 2 ∧ s.calls[0]? = some [] ∧ contains gpa s 5 = false := by
  refine ⟨miss.1, miss.2, runAll_reach Reach.init (Option.some_get miss_some).symm, ?_, ?_, ?_⟩
  · decide +kernel
  · decide +kernel
  · decide +kernel

end Verif.StackFilter
