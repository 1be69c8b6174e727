import Verif.HugeCache.Model
/-! Histories of the hugepage cache, with any interleaving of waiting calls. -/
namespace Verif.HugeCache
open Verif.HugeAddressMap Verif.HugeAllocator

/-- The ranges currently being returned to the kernel. -/
def S.busy (s : S) : List Rng := s.inflight.map Pend.r

/-- What callers must respect: ask for at least one hugepage, return only hugepages they own and did not take past
the cache. -/
def Ev.Pre (ob : List Rng) (ow : PSet) (s : S) : Ev → Prop
  | .get n _ sys _ _ => 0 < n ∧ SysOK ob n sys
  | .release r _ _ => 0 < r.n ∧ (∀ p, r.Has p → ow p) ∧ ∀ p, r.Has p → ¬ Cov s.taken p
  | .releaseUnbacked r => 0 < r.n ∧ (∀ p, r.Has p → ow p) ∧ ∀ p, r.Has p → ¬ Cov s.taken p
  | .releaseCached _ _ => True
  | .answer i _ => i < s.inflight.length
  | .take n sys => 0 < n ∧ SysOK ob n sys

/-- The hugepages owned by callers (those taken past the cache included) after an event. -/
def owned' (ow : PSet) : Ev → Out → PSet
  | .get .., .got (some r) _ _ => fun p => ow p ∨ r.Has p
  | .take .., .got (some r) _ _ => fun p => ow p ∨ r.Has p
  | .release r _ _, _ => fun p => ow p ∧ ¬ r.Has p
  | .releaseUnbacked r, _ => fun p => ow p ∧ ¬ r.Has p
  | _, _ => ow

/-- The ranges obtained from the system after an event. -/
def obtained' (ob : List Rng) : Ev → Out → List Rng
  | .get _ _ sys _ _, .got _ _ true => sys.toList ++ ob
  | .take _ sys, .got _ _ true => sys.toList ++ ob
  | _, _ => ob

/-- The number of hugepages successfully unbacked after an event. -/
def unbacked' (s : S) (u : Nat) : Ev → Nat
  | .answer i true => u + ((s.busy[i]?).map Rng.n).getD 0
  | _ => u

/-- Reachable states with: ranges obtained from the system, hugepages owned by callers, number of hugepages
unbacked so far. -/
inductive Reach : S → List Rng → PSet → Nat → Prop where
  | init : Reach S.init [] (fun _ => False) 0
  | step {s ob ow u} (e : Ev) {s' : S} {o : Out} : Reach s ob ow u → e.Pre ob ow s → step s e = some (s', o) →
      Reach s' (obtained' ob e o) (owned' ow e o) (unbacked' s u e)

end Verif.HugeCache
