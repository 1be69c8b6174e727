import Verif.HookList.Model
/-! What has happened to a hook, from the calls and their results only. -/
namespace Verif.HookList

/-- This event is a call of `Add(v)` or `Remove(v)`. -/
def Ev.about (v : Nat) : Ev → Bool
  | .add _ w => w == v
  | .remove _ w => w == v
  | _ => false

/-- This result is the return from `Add(v)` or `Remove(v)`. -/
def Out.about (v : Nat) : Out → Bool
  | .added _ w _ => w == v
  | .removed _ w _ => w == v
  | _ => false

def Out.isAdd (P : Nat → Bool) : Out → Bool
  | .added _ w true => P w
  | _ => false

def Out.isRemove (P : Nat → Bool) : Out → Bool
  | .removed _ w true => P w
  | _ => false

def Out.isCalled (t : Nat) : Out → Bool
  | .called u _ => u == t
  | _ => false

/-- How many calls of `Add` and `Remove` for hooks with `P` have returned true. -/
def adds (P : Nat → Bool) (tr : List (Ev × Out)) : Nat := tr.countP fun x => x.2.isAdd P
def removes (P : Nat → Bool) (tr : List (Ev × Out)) : Nat := tr.countP fun x => x.2.isRemove P

/-- No call of `Add(v)` or `Remove(v)` is under way: all have returned. -/
def Settled (v : Nat) (tr : List (Ev × Out)) : Prop := (tr.countP fun x => x.1.about v) = tr.countP fun x => x.2.about v

/-- The trace of one `Invoke` of thread `t` among the steps of other threads, from the call until it calls hooks `l`. -/
def InvokeTrace (t : Nat) (tr : List (Ev × Out)) (l : List Nat) : Prop :=
  tr.head?.map (·.1) = some (.invoke t) ∧ tr.getLast?.map (·.2) = some (.called t l) ∧ ∀ x ∈ tr.dropLast, x.2.isCalled t = false

/-- A list starts empty, or with one hook. -/
def Init (first : List Nat) (s : St) : Prop := (first = [] ∧ s = empty) ∨ ∃ h, h ≠ 0 ∧ first = [h] ∧ s = single h

end Verif.HookList
