import Verif.Experiments.Model
/-
What the two environment variables mean, stated without the parser and the buffer.
-/
namespace Verif.Experiments

/-- `t` is one of the comma-separated items of `s`. -/
def IsItem (t s : Str) : Prop :=
  ∃ pre post, s = pre ++ t ++ post ∧ ',' ∉ t ∧
    (pre = [] ∨ ∃ p, pre = p ++ [',']) ∧ (post = [] ∨ ∃ q, post = ',' :: q)

/-- `BORG_EXPERIMENTS` asks for the experiment. -/
def Asked (s : Str) (name : Str) : Prop :=
  s = "enable-all-known-experiments".toList ∨ IsItem name s

/-- `BORG_DISABLE_EXPERIMENTS` rules the experiment out. -/
def RuledOut (s : Str) (name : Str) : Prop := s = "all".toList ∨ IsItem name s

/-- A table with distinct identifiers below `n` and distinct names. -/
structure Valid (n : Nat) (tbl : List Config) : Prop where
  lt : ∀ c ∈ tbl, c.id < n
  ids : (tbl.map (·.id)).Nodup
  names : (tbl.map (·.name)).Nodup

/-- The experiments a test without either variable runs with, given the hashes: one test in eleven
runs with none; otherwise those whose hash says so, or if there are none, the last; brittle
experiments are never chosen. -/
def Picked (tbl : List Config) (h : Nat) (hn : Str → Nat) (c : Config) : Prop :=
  h % 11 ≠ 0 ∧ c.brittle = false ∧
    ((h ^^^ hn c.name) % 3 = 0 ∨
      ((∀ d ∈ tbl, d.brittle = false → (h ^^^ hn d.name) % 3 ≠ 0) ∧
       ∃ pre post, tbl = pre ++ c :: post ∧ ∀ d ∈ post, d.brittle = true))

end Verif.Experiments
