import Verif.SafeIo.Model
/-! What the wrappers that ignore signals are to do, in terms of the kernel's answers. -/
namespace Verif.SafeIo

/-- A call that a signal interrupted. -/
def Interrupted (a : Ans) : Prop := a = .err EINTR

/-- A call that failed for another reason. -/
def Failed (a : Ans) (e : Nat) : Prop := a = .err e ∧ e ≠ EINTR

/-- The answers that are not interruptions. -/
def heard (l : List Ans) : List Ans := l.filter (fun a => a ≠ .err EINTR)

/-- How many calls signals interrupted. -/
def interruptions (l : List Ans) : Nat := (l.filter (fun a => a = .err EINTR)).length

/-- What `poll` returns for an answer, for a set of `n` descriptors. -/
def pollValue (n : Nat) : Ans → Int
  | .ret k => min k n
  | .err _ => -1

/-- The file is a regular one: as long as bytes are left a read delivers at least one, it is always ready, and no call fails. -/
def Regular (l : List Ans) : Prop := ∀ a ∈ l, Interrupted a ∨ ∃ k, a = .ret (k + 1)

end Verif.SafeIo
