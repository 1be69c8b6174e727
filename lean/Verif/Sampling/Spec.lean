import Verif.Sampling.Model
/-
What sampled allocations should show, read off what could be seen from outside.  Lists of events
have the newest one first.
-/
namespace Verif.Sampling

/-- The samples taken. -/
def samplesOf : List Ev → List Sample
  | [] => []
  | .sampled s :: l => s :: samplesOf l
  | _ :: l => samplesOf l

/-- The profile has been started, and neither stopped nor destroyed. -/
def isRunning (tok : Nat) : List Ev → Bool
  | [] => false
  | .started t :: l => t == tok || isRunning tok l
  | .stopped t _ :: l => t != tok && isRunning tok l
  | .dropped t :: l => t != tok && isRunning tok l
  | _ :: l => isRunning tok l

/-- The samples taken while it was running. -/
def collected (tok : Nat) : List Ev → List Sample
  | [] => []
  | .sampled s :: l => if isRunning tok l then s :: collected tok l else collected tok l
  | _ :: l => collected tok l

/-- It has been started at some time. -/
def wasStarted (tok : Nat) (l : List Ev) : Prop := .started tok ∈ l

/-- The total of `f` over blocks. -/
def total (f : Sample → Nat) (l : List Sample) : Nat := (l.map f).sum

/-- The bytes wasted inside a sampled block, as estimated. -/
def waste (A : Arith) (s : Sample) : Nat := if s.requested < s.allocated then A.frag s else 0

/-- What is needed of the comparison with the peak: with a growth fraction of at least one a heap no
larger than the peak is no new peak, and a smaller heap is one less easily. -/
structure Sane (A : Arith) : Prop where
  on : A.enabled = true
  grows : ∀ v p, 0 ≤ p → A.newPeak v p = true → p < v
  mono : ∀ v v' p, v' ≤ v → A.newPeak v p = false → A.newPeak v' p = false

end Verif.Sampling
