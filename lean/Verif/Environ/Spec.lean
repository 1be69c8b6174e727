/-! The environment of a process as a user sees it (C88): strings `NAME=value`, of which the first one with a name counts. -/
namespace Verif.Environ

/-- A string: its bytes, without the NUL at its end. -/
abbrev Str := List Nat

/-- Strings have no NUL inside. -/
def Clean (s : Str) : Prop := ∀ b ∈ s, b ≠ 0

/-- Entry `e` sets `name` to `v`; 61 is `=`. -/
def Sets (e name v : Str) : Prop := e = name ++ 61 :: v

/-- `name` is set to `v`: by the first entry that sets it. -/
def IsSet (env : List Str) (name v : Str) : Prop :=
  ∃ pre e post, env = pre ++ e :: post ∧ Sets e name v ∧ ∀ x ∈ pre, ∀ w, ¬ Sets x name w

/-- `name` is not set. -/
def Unset (env : List Str) (name : Str) : Prop := ∀ x ∈ env, ∀ w, ¬ Sets x name w

/-- A proper name of a variable: no `=` in it. -/
def Name (name : Str) : Prop := 61 ∉ name

end Verif.Environ
