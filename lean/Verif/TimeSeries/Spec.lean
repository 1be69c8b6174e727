import Verif.TimeSeries.Model
/-! What the trackers are supposed to report: the history of reports since the clock last went back, and windows of it. -/
namespace Verif.TimeSeries
variable {T S : Type}

/-- The reports made, newest first, each with the number of the epoch (the time divided by the length of an epoch); `none` for
an update of the time alone.  It is never empty. -/
abbrev Log (S : Type) := List (Nat × Option S)

/-- A new event.  If the clock goes back to an earlier epoch, what was known before is forgotten. -/
def push (l : Log S) (e : Nat × Option S) : Log S :=
  match l with
  | [] => [e]
  | x :: _ => if e.1 < x.1 then [e] else e :: l

/-- The epoch of the latest event. -/
def now (l : Log S) : Nat := match l with | [] => 0 | x :: _ => x.1

/-- `v` was reported in the last `E` epochs, the current one included. -/
def InWindow (l : Log S) (E : Nat) (v : S) : Prop := ∃ e, (e, some v) ∈ l ∧ now l < e + E

/-- `v` was reported in epoch `e`, one of the last `E` epochs. -/
def InEpoch (l : Log S) (E e : Nat) (v : S) : Prop := (e, some v) ∈ l ∧ now l < e + E

/-- The histories of a tracker, for an epoch of `d` ticks. -/
inductive Reach (K d : Nat) (ops : Ops T S) : Tr T → Log S → Prop
  | init {t} : t < 2 ^ 63 → Reach K d ops (init ops (currentEpoch d t)) [(t / d, none)]
  | report {s l t v b s'} : Reach K d ops s l → t < 2 ^ 63 → report K ops s (currentEpoch d t) v = some (b, s') →
      Reach K d ops s' (push l (t / d, some v))
  | tick {s l t b s'} : Reach K d ops s l → t < 2 ^ 63 → updateClock K ops s (currentEpoch d t) = some (b, s') →
      Reach K d ops s' (push l (t / d, none))

/-- The lengths of epochs, in ticks, for which `GetCurrentEpoch` divides: not a power of two (see `power_of_two_epoch`). -/
def GoodTicks (d : Nat) : Prop := 0 < d ∧ d < 2 ^ 64 ∧ ∀ i, d ≠ 2 ^ i

/-- `m` is the largest value in a set of numbers, or 0 if there is none. -/
def IsMax (P : Nat → Prop) (m : Nat) : Prop := (∀ v, P v → v ≤ m) ∧ (P m ∨ (∀ v, ¬ P v) ∧ m = 0)

/-- `m` is the smallest value in a set of numbers, or 0 if there is none. -/
def IsMin (P : Nat → Prop) (m : Nat) : Prop := (∀ v, P v → m ≤ v) ∧ (P m ∨ (∀ v, ¬ P v) ∧ m = 0)

end Verif.TimeSeries
