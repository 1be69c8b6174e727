import Verif.Arena.Model
/-!
What the arena and the object allocator are supposed to do: regions, what clients and the system allocator guarantee,
reachable states.
-/
namespace Verif.Arena

/-- Two regions (address, length) have no byte in common. -/
def Disj (p q : Nat × Nat) : Prop := ∀ x, ¬((p.1 ≤ x ∧ x < p.1 + p.2) ∧ q.1 ≤ x ∧ x < q.1 + q.2)

/-- A region lies in one of the regions of a list. -/
def Inside (p : Nat × Nat) (l : List (Nat × Nat)) : Prop := ∃ s ∈ l, s.1 ≤ p.1 ∧ p.1 + p.2 ≤ s.1 + s.2

/-- All regions that clients have: what the arena gave, and the objects in use. -/
def W.clients (cfg : Cfg) (w : W) : List (Nat × Nat) := w.raw ++ w.use.map fun p => (p, cfg.osize)

/-- Objects hold a pointer: metadata_object_allocator.h:107, 114. -/
structure Cfg.OK (cfg : Cfg) : Prop where
  size : 8 ≤ cfg.osize
  align : 3 ≤ cfg.oalign
  small : cfg.osize + 2 ^ cfg.oalign < 2 ^ 64

/-- What the system allocator guarantees about its answer: see `Verif.SystemAlloc`. -/
def SysOK (cfg : Cfg) (w : W) (bytes align : Nat) : Option (Nat × Nat) → Prop
  | none => True
  | some (p, n) => 0 < p ∧ askSize bytes ≤ n ∧ p % askAlign cfg align = 0 ∧ ∀ s ∈ w.sys, Disj (p, n) s

/-- What clients guarantee. -/
def Pre (cfg : Cfg) (w : W) : Ev → Prop
  | .alloc bytes align sys => 0 < bytes ∧ (∃ i, align = 2 ^ i) ∧ bytes + align < 2 ^ 64 ∧ SysOK cfg w bytes align sys
  | .new sys => SysOK cfg w cfg.osize (2 ^ cfg.oalign) sys
  | .delete p => p ∈ w.use
  -- arena.h:69, 71
  | .update d e => 0 ≤ (w.a.allocated : Int) + d ∧ 0 ≤ (w.a.nonresident : Int) + e
  -- aligned words outside of what clients have do not change
  | .write mem => ∀ x, x % 8 = 0 → (∀ r ∈ w.clients cfg, Disj (x, 8) r) → mem x = w.a.mem x

/-- Reachable states. -/
inductive Reach (cfg : Cfg) : W → Prop
  | init (mem) : Reach cfg (W.init mem)
  | step {w e w' out} : Reach cfg w → Pre cfg w e → step cfg w e = some (w', out) → Reach cfg w'

end Verif.Arena
