import Verif.PageHeap.Model
/-! Histories of the page heap and the vocabulary of its properties. -/
namespace Verif.PageHeap
open Verif.HugeAddressMap
open Verif.HugeRegion (hlFromPages)
open Verif.HugeAllocator (SysOK)

/-- Page `p` is in the run; in the call. -/
def Run.Has (r : Run) (p : Nat) : Prop := r.p ≤ p ∧ p < r.p + r.n
def Call.Has (c : Call) (p : Nat) : Prop := c.p ≤ p ∧ p < c.p + c.n

/-- The runs in use after an event. -/
def live' (L : List Run) : Ev → Out → List Run
  | .delete r _ _ _, _ => L.erase r
  | _, .run r _ => r :: L
  | _, _ => L

/-- The hugepage is on one of the filler's lists. -/
def OnList (s : HP) (id : Nat) : Prop := ∃ k i, id ∈ (s.fill.hl k).lists i

/-- What callers and the environment must respect.  Runs asked for are not empty; spans of many objects have one page and
no alignment; alignments are at most a hugepage; the system returns fresh memory; only runs in use are returned, as they
were handed out; only calls that wait are resumed; there is one treatment at a time, of hugepages on the lists. -/
def Ev.Pre (H N : Nat) (ob : List Rng) (L : List Run) (s : HP) : Ev → Prop
  | .new n _ dense _ _ sys1 sys2 _ _ =>
    0 < n ∧ (dense = true → n = 1) ∧ SysOK ob H sys1 ∧ SysOK ob (hlFromPages N n) sys2
  | .newAligned n align _ dense _ _ sys1 sys2 _ _ =>
    0 < n ∧ align ≤ N ∧ (dense = true → n = 1 ∧ align ≤ 1) ∧ SysOK ob H sys1 ∧ SysOK ob (hlFromPages N n) sys2
  | .refillDone i => i < s.refills.length
  | .delete r _ _ _ => r ∈ L
  | .putAnswer i _ _ _ => i < s.puts.length
  | .cacheAnswer i _ => i < s.cache.inflight.length
  | .releaseCached _ _ => True
  | .releaseRest _ _ _ => True
  | .breakRest _ _ _ => True
  | .treatBegin a b => s.treat = none ∧ (∀ id ∈ a, OnList s id) ∧ (∀ id ∈ b, OnList s id) ∧ b.Nodup
  | .treatEnd obs _ _ => (∃ a, s.treat = some (a, obs.map Filler.Obs.id)) ∧ ∀ o ∈ obs, Bitmap.WF N o.unbacked
  | .fetch _ _ => s.treat = none

/-- Reachable states of the page heap, with the ranges obtained from the system and the runs in use. -/
inductive Reach (H N : Nat) (mode : Bool) : HP → List Rng → List Run → Prop where
  | init (more : Bool) (reg : Nat → HugeRegion.R) : Reach H N mode (HP.init N more reg) [] []
  | step {s ob L} (e : Ev) {s' : HP} {res : Res} : Reach H N mode s ob L → e.Pre H N ob L s →
      s.step H N mode e = some (s', res) → Reach H N mode s' (res.got ++ ob) (live' L e res.out)

/-- The hugepages before the last one of the range whose last hugepage a waiting `filler_.Put` has. -/
def PendPut.before (x : PendPut) : Nat := match x.k with | .c _ hl => hl - 1 | .a _ => 0

/-- Hugepages that calls still waiting have in hand: being unbacked by the cache; emptied and being unbacked by the
filler, with the rest of the range they end; emptied during a treatment; obtained for the filler. -/
def HP.pending (s : HP) : Nat :=
  lenSum s.cache.busy + s.puts.length + (s.puts.map PendPut.before).sum +
    s.fill.freed.length + s.refills.length

/-- Nothing waits. -/
def HP.quiet (s : HP) : Prop := s.cache.inflight = [] ∧ s.puts = [] ∧ s.fill.freed = [] ∧ s.refills = []

/-- Page `p` may at this moment be on its way back to the kernel in a call that waits: one of the cache or one of the
filler. -/
def HP.leaving (N : Nat) (s : HP) (p : Nat) : Prop :=
  Cov s.cache.busy (p / N) ∨ ∃ x ∈ s.puts, (s.fill.tr x.id).loc = p / N

end Verif.PageHeap
