import Verif.HugeRegion.Model
import Verif.PageTracker.Spec
import Verif.RangeTracker.Spec
/-! Histories of a set of regions and the vocabulary of its properties. -/
namespace Verif.HugeRegion
open Verif.RangeTracker
open Verif.PageTracker (Call okSum)

/-- Some page of `[q, q + n)` is in hugepage `i` of the region. -/
def Touch (N q n i : Nat) : Prop := ∃ j, q ≤ j ∧ j < q + n ∧ j / N = i

/-- Page `p` belongs to one of the runs (first page, number of pages). -/
def usedBy (L : List (Nat × Nat)) (p : Nat) : Bool := L.any fun r => decide (r.1 ≤ p ∧ p < r.1 + r.2)

/-- What is known about a history: the live runs of every region (pages counted from its start), and the hugepages that
may hold memory: touched by a run handed out and not unbacked since. -/
structure Gh where
  live : Nat → List (Nat × Nat)
  mem : Nat → Nat → Prop

def Gh.init : Gh := ⟨fun _ => [], fun _ _ => False⟩

/-- Hugepage `x` of region `id` is in a call of the log that succeeded. -/
def InLog (log : Log) (id x : Nat) : Prop := ∃ c, (id, c) ∈ log ∧ c.ok = true ∧ c.Has x

/-- Hugepages released by the calls that succeeded, and hugepages in all calls. -/
def logOk (log : Log) : Nat := okSum (log.map Prod.snd)

/-- Reachable sets of regions.  Regions added are new and occupy `H` hugepages no other region has; only live runs are
returned, as they were handed out; the kernel may answer anything. -/
inductive Reach (H N : Nat) : S → Gh → Prop where
  | init (more : Bool) (reg : Nat → R) : Reach H N (S.init more reg) Gh.init
  | contribute {s g} (id loc : Nat) : Reach H N s g → id ∉ s.ids →
      (∀ j ∈ s.ids, loc + H ≤ (s.reg j).loc ∨ (s.reg j).loc + H ≤ loc) →
      Reach H N (s.contribute id (R.new H N loc)) ⟨upd g.live id [], upd g.mem id fun _ => False⟩
  | full {s g s'} (n : Nat) : Reach H N s g → S.maybeGet H N s n = some (s', none) → Reach H N s' g
  | get {s g s'} (n id i : Nat) (rel : Bool) : Reach H N s g →
      S.maybeGet H N s n = some (s', some (id, (s.reg id).loc * N + i, rel)) →
      Reach H N s' ⟨upd g.live id ((i, n) :: g.live id), upd g.mem id fun x => g.mem id x ∨ Touch N i n x⟩
  | put {s g s'} (id i n : Nat) (ok : Nat → Bool) (calls : List Call) : Reach H N s g → id ∈ s.ids →
      (i, n) ∈ g.live id → S.maybePut H N s ((s.reg id).loc * N + i) n ok = some (s', some (id, calls)) →
      Reach H N s' ⟨upd g.live id ((g.live id).erase (i, n)),
        upd g.mem id fun x => g.mem id x ∧ ¬ ∃ c ∈ calls, c.ok = true ∧ c.Has x⟩
  | miss {s g s'} (p n : Nat) (ok : Nat → Bool) : Reach H N s g → S.maybePut H N s p n ok = some (s', none) →
      Reach H N s' g
  | release {s g s'} (desired : Nat) (adaptive hitLimit : Bool) (frac : Nat) (ok : Nat → Nat → Bool) (released : Nat)
      (log : Log) : Reach H N s g →
      S.releasePages H N s desired adaptive hitLimit frac ok = some (s', released, log) →
      Reach H N s' ⟨g.live, fun id x => g.mem id x ∧ ¬ InLog log id x⟩

end Verif.HugeRegion
