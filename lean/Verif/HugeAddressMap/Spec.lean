import Verif.HugeAddressMap.Model
/-! The intended meaning: a set of hugepages, seen as its maximal runs. -/
namespace Verif.HugeAddressMap

/-- The ranges held, in tree order. -/
def ranges : Tree → List Rng
  | .leaf => []
  | .node l x r => ranges l ++ x.r :: ranges r

/-- Hugepage `p` lies in the range. -/
def Rng.Has (r : Rng) (p : Nat) : Prop := r.s ≤ p ∧ p < r.s + r.n

/-- Hugepage `p` lies in one of the ranges. -/
def Cov (L : List Rng) (p : Nat) : Prop := ∃ r ∈ L, r.Has p

def lenSum : List Rng → Nat
  | [] => 0
  | r :: L => r.n + lenSum L

/-- Non-empty ranges in address order with at least one absent hugepage between neighbours. -/
def Sep (L : List Rng) : Prop := (∀ r ∈ L, 0 < r.n) ∧ L.Pairwise (fun a b => a.s + a.n < b.s)

/-- Abstract state: a set of hugepages. -/
abbrev PSet := Nat → Prop

/-- Hugepage `p` belongs to the run of `S` that starts at `k`. -/
def InRun (S : PSet) (k p : Nat) : Prop := k ≤ p ∧ ∀ q, k ≤ q → q ≤ p → S q

/-- `k` is the first hugepage of a maximal run of `S`. -/
def StartsRun (S : PSet) (k : Nat) : Prop := S k ∧ ∀ q, q + 1 = k → ¬ S q

def specStep (S : PSet) : Op → PSet
  | .insert r => fun p => S p ∨ r.Has p
  | .remove k => fun p => S p ∧ ¬ InRun S k p

/-- When the call is allowed. -/
def specPre (S : PSet) : Op → Prop
  | .insert r => ∀ p, r.Has p → ¬ S p
  | .remove k => StartsRun S k

def specRun : PSet → List Op → PSet
  | S, [] => S
  | S, o :: os => specRun (specStep S o) os

/-- Callers insert non-empty ranges. -/
def Op.OK : Op → Prop
  | .insert r => 0 < r.n
  | .remove _ => True

end Verif.HugeAddressMap
