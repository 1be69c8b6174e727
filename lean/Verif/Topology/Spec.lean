import Verif.Topology.Model
/-
CPU lists as the kernel prints them, and what the topology should say about them.
-/
namespace Verif.Topology

/-- `d` writes the number `v` in decimal, in at most 14 digits. -/
def Writes (d : Str) (v : Nat) : Prop :=
  d ≠ [] ∧ d.length ≤ 14 ∧ (∀ c ∈ d, '0' ≤ c ∧ c ≤ '9') ∧ v = d.foldl (fun v c => 10 * v + (c.toNat - '0'.toNat)) 0

/-- An entry of a CPU list: one number or a range. -/
inductive Item where
  | one (d : Str) (v : Nat)
  | range (d : Str) (v : Nat) (e : Str) (w : Nat)

/-- How it is written. -/
def Item.text : Item → Str
  | .one d _ => d
  | .range d _ e _ => d ++ ['-'] ++ e

/-- The numbers are written correctly and are below 2048. -/
def Item.Ok : Item → Prop
  | .one d v => Writes d v ∧ v < 2048
  | .range d v e w => Writes d v ∧ v < 2048 ∧ Writes e w ∧ w < 2048

/-- The CPUs it stands for. -/
def Item.Has : Item → Nat → Prop
  | .one _ v, c => c = v
  | .range _ v _ w, c => v ≤ c ∧ c ≤ w

/-- The text of a list: the entries joined by commas, and usually a newline. -/
def listText (items : List Item) (newline : Bool) : Str :=
  List.intercalate [','] (items.map Item.text) ++ if newline then ['\n'] else []

/-- The file holds the list of exactly the CPUs in `s`, and can be read. -/
def Lists (f : File) (s : Nat → Prop) : Prop :=
  (∀ n, f.sched n ≠ none) ∧ ∃ items nl, f.data = listText items nl ∧ (∀ i ∈ items, i.Ok) ∧
    ∀ c, s c ↔ ∃ i ∈ items, i.Has c

/-- The machine has NUMA nodes 0 to `k - 1`, whose CPU lists are `N 0`, `N 1` and so on; no CPU is
in two of them. -/
structure Nodes (opened : Nat → Opened) (k : Nat) (N : Nat → Nat → Prop) : Prop where
  here : ∀ n, n < k → ∃ f, opened n = .file f ∧ Lists f (N n)
  last : opened k = .missing
  disjoint : ∀ n n' c, n < k → n' < k → N n c → N n' c → n = n'

/-- Sharing a cache is an equivalence between the CPUs below `n`. -/
structure Sharing (n : Nat) (share : Nat → Nat → Bool) : Prop where
  refl : ∀ c, c < n → share c c = true
  symm : ∀ c d, share c d = true → share d c = true
  trans : ∀ c d e, share c d = true → share d e = true → share c e = true
  dom : ∀ c d, share c d = true → c < n ∧ d < n

/-- A CPU that shares its cache with no smaller one. -/
def leads (share : Nat → Nat → Bool) (c : Nat) : Bool := (List.range c).all fun d => !share d c

/-- The number of such CPUs below `a`: there is one for each cache. -/
def leadersBelow (share : Nat → Nat → Bool) (a : Nat) : Nat :=
  ((List.range a).filter (leads share)).length

end Verif.Topology
