import Verif.Background.Model
/-! What the background thread is to do. -/
namespace Verif.Background

/-- The actions that have a period. -/
inductive Timed where
  | drain | shuffle | resizeClasses | resizeMaxCapacity | resizeSlab | plunder | resizeTransfer | treat
  deriving DecidableEq, Repr

/-- The periods, in sleep intervals. -/
def Timed.every : Timed → Int
  | .drain => 30
  | .shuffle => 5
  | .resizeClasses => 2
  | .resizeMaxCapacity => 29
  | .resizeSlab => 29
  | .plunder => 5
  | .resizeTransfer => 2
  | .treat => 5

/-- When an action is enabled. -/
def Timed.enabled (t : Timed) (e : Env) : Prop :=
  match t with
  | .drain | .shuffle | .resizeClasses => e.perCpu
  | .resizeMaxCapacity => e.perCpu ∧ e.maxCapacity
  | .resizeSlab => e.perCpu ∧ e.dynamicSlab
  | .plunder | .resizeTransfer => e.smallButSlow = false
  | .treat => True

/-- The action itself. -/
def Timed.isAct (t : Timed) (a : Action) : Bool :=
  match t, a with
  | .drain, .drain | .shuffle, .shuffle | .resizeClasses, .resizeClasses | .resizeMaxCapacity, .resizeMaxCapacity
  | .resizeSlab, .resizeSlab | .plunder, .plunder | .resizeTransfer, .resizeTransfer | .treat, .treat _ => true
  | _, _ => false

/-- A pass ran the action. -/
def Timed.ran (t : Timed) (p : Env × List Action) : Bool := p.2.any t.isAct

/-- When an action was last run: the time of the last pass that ran it, or the start. -/
def lastRun (t : Timed) (start : Int) (h : List (Env × List Action)) : Int :=
  h.foldl (fun last p => if t.ran p then p.1.now else last) start

/-- The time of the last pass, or the start. -/
def lastPass (start : Int) (h : List (Env × List Action)) : Int := h.foldl (fun _ p => p.1.now) start

/-- The order of the actions: from the caches of the CPUs to the page heap. -/
def rank : Action → Nat
  | .drain => 0
  | .shuffle => 1
  | .resizeClasses => 2
  | .resizeMaxCapacity => 3
  | .resizeSlab => 4
  | .clearTouched => 5
  | .plunderSharded => 6
  | .plunder => 7
  | .resizeTransfer => 8
  | .treat _ => 9
  | .release _ => 10

/-- The bytes a pass asks to be released. -/
def bytesOf : List Action → Int
  | [] => 0
  | .release b :: l => b + bytesOf l
  | _ :: l => bytesOf l

/-- What is assumed of `double` arithmetic: zero is exact, rounding is symmetric, in the range of magnitudes that occur its relative
error is at most 2^-53, and the largest `ssize_t` rounds up to 2^63. -/
structure Rounding (rnd : Rat → Rat) : Prop where
  zero : rnd 0 = 0
  odd : ∀ x : Rat, rnd (-x) = -rnd x
  low : ∀ x : Rat, 1 / 2 ^ 64 ≤ x → x ≤ 2 ^ 192 → x - x / 2 ^ 53 ≤ rnd x
  high : ∀ x : Rat, 1 / 2 ^ 64 ≤ x → x ≤ 2 ^ 192 → rnd x ≤ x + x / 2 ^ 53
  top : rnd ssizeMax = 2 ^ 63

/-- What the rate comes to over a time in nanoseconds. -/
def share (rate : Nat) (elapsed : Int) : Rat := rate * elapsed / 1000000000

end Verif.Background
