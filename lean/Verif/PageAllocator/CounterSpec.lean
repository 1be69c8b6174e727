import Verif.PageAllocator.Spec
/-! What the counts of limit hits and the peak are to say (C85). -/
namespace Verif.PageAllocator
open Verif.PageHeap
open Verif.HugeAddressMap (Rng)

/-- One check of the limits: the bytes in use when it starts, the limits in force, and the bytes in sampled objects with
those of the allocation that led to the check. -/
structure Check where
  usage : Nat
  soft : Nat
  hard : Nat
  app : Nat
  deriving Repr, DecidableEq

/-- What an observer knows: the limits in force and the checks so far, the latest first. -/
structure Seen where
  soft : Nat
  hard : Nat
  checks : List Check
  deriving Repr, DecidableEq

def Seen.init : Seen := ⟨sizeMax, sizeMax, []⟩

def Seen.check (g : Seen) (usage app : Nat) : Seen := { g with checks := ⟨usage, g.soft, g.hard, app⟩ :: g.checks }

/-- A limit is set; the soft limit is never above the hard one. -/
def Seen.set (g : Seen) (limit : Nat) : Kind → Seen
  | .soft => { g with soft := min limit g.hard }
  | .hard => { g with hard := limit, soft := min g.soft limit }

/-- How often the usage was found above the limit. -/
def softHits (l : List Check) : Nat := l.countP fun k => decide (k.soft < k.usage)
def hardHits (l : List Check) : Nat := l.countP fun k => decide (k.hard < k.usage)

/-- `p` is the highest usage ever found and `a` what was known of the application when it was first found. -/
def IsPeak (p a : Nat) : List Check → Prop
  | [] => p = 0 ∧ a = 0
  | k :: l => (∃ p' a', IsPeak p' a' l ∧ (p' < k.usage → p = k.usage ∧ a = k.app) ∧ (k.usage ≤ p' → p = p' ∧ a = a'))

/-- The lives of a process: heaps in any reachable state between the checks, checks after allocations of any size, limits
set in any order.  A process that is aborted has no further life; one in which only the assertion of line 133 fails goes
on, as it does in builds without assertions. -/
inductive Life (H N : Nat) (mode : Bool) (c : Cfg) : World → Seen → Prop where
  | init {w : World} {mem : Heap → List Rng} {live : Heap → List Run} : Good H N mode c mem live w → w.lim = Lim.init →
      Life H N mode c w Seen.init
  | other {w w' : World} {g : Seen} {mem : Heap → List Rng} {live : Heap → List Run} : Life H N mode c w g →
      Good H N mode c mem live w' → w'.lim = w.lim → Life H N mode c w' g
  | check {w w' : World} {g : Seen} {o : Outcome} {log : List Ask} (sub : Bool) (n : Nat) : Life H N mode c w g →
      usage H N c w ≤ sizeMax → shrinkToLimit (env H N mode c) c sub w n = some (w', o, log) → o ≠ .aborted →
      Life H N mode c w' (g.check (usage H N c w) (w.app + n * c.pageSize))
  | set {w w' : World} {g : Seen} {o : Outcome} {log : List Ask} (sub : Bool) (limit : Nat) (k : Kind) : Life H N mode c w g →
      usage H N c w ≤ sizeMax → limit ≤ sizeMax → setLimit (env H N mode c) c sub w limit k = some (w', o, log) →
      o ≠ .aborted → Life H N mode c w' ((g.set limit k).check (usage H N c w) w.app)

end Verif.PageAllocator
