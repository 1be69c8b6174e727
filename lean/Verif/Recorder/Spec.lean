import Verif.Recorder.Model
/-! What is registered, from the calls and their results only; what callers and the allocator must observe. -/
namespace Verif.Recorder

abbrev Trace := List (Ev × Out)

/-- The samples registered and not unregistered, with what was registered. -/
def liveStep (l : List (Nat × Nat)) : Out → List (Nat × Nat)
  | .registered _ p d => (p, d) :: l
  | .buried _ p _ => l.filter fun x => x.1 != p
  | _ => l

def live (tr : Trace) : List (Nat × Nat) := tr.foldl (fun l x => liveStep l x.2) []

/-- A call of `Unregister(p)` is under way. -/
def endingStep (p : Nat) (b : Bool) : Ev × Out → Bool
  | (.unregister _ q, _) => b || q == p
  | (_, .buried _ q _) => b && q != p
  | _ => b

def ending (p : Nat) (tr : Trace) : Bool := tr.foldl (endingStep p) false

/-- A call of `UnregisterAll` is under way. -/
def clearing (tr : Trace) : Bool := tr.foldl (fun b x =>
  match x with
  | (.clear _, _) => true
  | (_, .cleared _) => false
  | _ => b) false

/-- Every call of `New` has returned something else. -/
def made (tr : Trace) : List Nat := tr.filterMap fun x => match x.1 with | .new _ p => some p | _ => none

/-- Callers unregister what is registered, once, and not while `UnregisterAll` is under way (sampled_allocation_recorder.h:82-88); the allocator hands out new
memory (C31). -/
def Pre (tr : Trace) : Ev → Prop
  | .new _ p => p ∉ made tr ∧ p ≠ 0 ∧ p ≠ G
  | .unregister _ p => (∃ d, (p, d) ∈ live tr) ∧ ending p tr = false ∧ clearing tr = false
  | .clear _ => ∀ p, ending p tr = false
  | _ => True

/-- Executions, with their trace. -/
inductive Run : Trace → St → Prop
  | init : Run [] init
  | step {tr : Trace} {s s' : St} {e : Ev} {o : Out} (h : Run tr s) (hp : Pre tr e) (hs : step s e = some (s', o)) :
      Run (tr ++ [(e, o)]) s'

def Out.isBuried (p : Nat) : Out → Bool
  | .buried _ q _ => q == p
  | _ => false

/-- `t`'s call that began with event `e` is the end of the trace, after `tr0`: no other such event of `t` follows. -/
def Since (e : Ev) (tr tr0 tr1 : Trace) : Prop := tr = tr0 ++ tr1 ∧ tr1.head? = some (e, .none) ∧ ∀ x ∈ tr1.tail, x.1 ≠ e

/-- The call of `Register` of `t` that made `p` is under way. -/
def Pending (tr : Trace) (t p : Nat) : Prop :=
  ∃ tr0 tr1, Since (.new t p) tr tr0 tr1 ∧ ∀ x ∈ tr1, ∀ q d, x.2 ≠ .registered t q d

/-- The callback in force, from the calls. -/
def callback (tr : Trace) : Option Nat := tr.foldl (fun f x => match x.1 with | .setDispose g => g | _ => f) none

/-- Who moves. -/
def Ev.thread : Ev → Option Nat
  | .register t _ => some t
  | .new t _ => some t
  | .load t => some t
  | .cas t _ => some t
  | .unregister t _ => some t
  | .bury t => some t
  | .setDispose _ => none
  | .iterate t => some t
  | .visit t => some t
  | .clear t => some t
  | .sweep t => some t

end Verif.Recorder
