import Verif.ThreadCache.Model
/-!
What the per-thread caches are supposed to do: where the objects are, what the byte size is, what the callers and the
transfer cache guarantee, reachable states.
-/
namespace Verif.ThreadCache

/-- A size class in use: it has a size and a batch length. -/
def Cfg.Used (cfg : Cfg) (k : Nat) : Prop :=
  k < cfg.nc ∧ 0 < cfg.size k ∧ 1 ≤ cfg.batch k ∧ cfg.batch k ≤ kMaxObjectsToMove

instance (cfg : Cfg) (k : Nat) : Decidable (cfg.Used k) := inferInstanceAs (Decidable (_ ∧ _ ∧ _ ∧ _))

/-- A configuration: as in common.h:126-163. -/
structure Cfg.OK (cfg : Cfg) : Prop where
  steal : 0 < cfg.kSteal
  le : cfg.kSteal ≤ cfg.kMin
  dflt : cfg.kMin ≤ cfg.kDefault

/-- Objects of class `k`. -/
def pairs (k : Nat) (l : List Nat) : List (Nat × Nat) := l.map fun o => (k, o)

/-- All objects in a cache, with their classes. -/
def Heap.objects (cfg : Cfg) (h : Heap) : List (Nat × Nat) :=
  (List.range cfg.nc).flatMap fun k => pairs k (h.list k).objs

/-- Bytes of the objects in a cache. -/
def Heap.bytes (cfg : Cfg) (h : Heap) : Nat :=
  ((List.range cfg.nc).map fun k => cfg.size k * (h.list k).objs.length).sum

/-- Bytes of objects already given to the transfer cache by a `ReleaseToTransferCache` that is not over. -/
def Heap.leaving (cfg : Cfg) (h : Heap) : Nat :=
  match h.st with
  | .rel k n m _ => (m - n) * cfg.size k
  | _ => 0

/-- All objects the caches and their users have. -/
def W.objects (cfg : Cfg) (w : W) : List (Nat × Nat) := w.user ++ w.heaps.flatMap fun h => h.objects cfg

/-- Objects that enter with an event and that leave with what it shows. -/
def Ev.enters (w : W) : Ev → List (Nat × Nat)
  | .fetched id l =>
    match find w.heaps id with
    | some h => match h.st with | .fetch k _ => pairs k l | _ => []
    | none => []
  | _ => []

def Out.leaves : Out → List (Nat × Nat)
  | .toBacking k l => pairs k l
  | _ => []

/-- What callers and transfer cache guarantee. -/
def Pre (cfg : Cfg) (w : W) : Ev → Prop
  | .create id => find w.heaps id = none
  | .malloc id k => (∃ h, find w.heaps id = some h ∧ h.st = .idle) ∧ cfg.Used k
  | .free id k o => (∃ h, find w.heaps id = some h ∧ h.st = .idle) ∧ (k, o) ∈ w.user
  | .act id => ∃ h, find w.heaps id = some h
  | .fetched id l => ∃ h k n, find w.heaps id = some h ∧ h.st = .fetch k n ∧ l.length ≤ n ∧
      l.Nodup ∧ ∀ o ∈ l, (k, o) ∉ w.objects cfg
  | .delete id => ∃ h, find w.heaps id = some h ∧ h.st = .idle
  | .direct k o => (k, o) ∈ w.user
  -- the API takes an `int64_t`; see `negative_limit_fails` for a negative one
  | .resize n _ => n < 2 ^ 63

/-- Reachable states. -/
inductive Reach (cfg : Cfg) : W → Prop
  | init : Reach cfg (W.init cfg)
  | step {w e w' out} : Reach cfg w → Pre cfg w e → step cfg w e = some (w', out) → Reach cfg w'

end Verif.ThreadCache
