import Verif.CpuCache.Model
import Verif.Slab.Spec
/-!
What the per-CPU caches are supposed to do: where the objects are, where the bytes of the budget are, what the callers
and the layer below guarantee, reachable states.
-/
namespace Verif.CpuCache
open Slab (Valid GoodObj)

/-- A size class in use: it has a size and a batch length. -/
def Cfg.Used (cfg : Cfg) (k : Nat) : Prop :=
  Valid cfg.slab.nc k ∧ 0 < cfg.size k ∧ 1 ≤ cfg.batch k ∧ cfg.batch k ≤ kMaxObjectsToMove

def pairs (k : Nat) (l : List Nat) : List (Nat × Nat) := l.map fun o => (k, o)

def Req.hand : Req → List (Nat × Nat)
  | .alloc _ => []
  | .free k o => [(k, o)]

/-- Objects in local variables of a thread. -/
def St.hand : St → List (Nat × Nat)
  | .slow q | .caching q | .retry q _ | .upd q _ | .grow q _ _ _ | .growing q _ _ _ _ | .grown q _ _ _ | .target q _ => q.hand
  | .sendOne k o => [(k, o)]
  | .fetch r | .storing r _ _ | .done r => pairs r.k r.res.toList
  | .store r l _ | .back r l => pairs r.k r.res.toList ++ pairs r.k l
  | .gather v | .gathering v _ | .flush v => pairs v.k v.batch
  | .drain _ _ _ out | .classes _ _ out | .steal _ _ _ _ out | .all out => out.flatMap fun x => pairs x.1 x.2
  | _ => []

/-- Bytes of the budget of CPU `c` a thread has in hand: taken from the `available` counter or from a class and not
yet given to a class or put back. -/
def St.purse (c : Nat) : St → Nat
  | .growing _ c' _ _ got => if c' = c then got else 0
  | .grown _ c' _ b => if c' = c then b else 0
  | .classes0 c' av | .classes c' av _ | .classes1 c' av => if c' = c then av else 0
  | .steal _ _ _ (.pend src b _) _ => if src = c then b else 0
  | _ => 0

/-- Bytes already added to `available` of CPU `c` and not yet to its `capacity`. -/
def St.owed (c : Nat) : St → Nat
  | .steal dst _ acq .last _ => if dst = c then acq else 0
  | _ => 0

/-- Bytes on their way from one CPU's budget to another's. -/
def St.moving : St → Nat
  | .steal _ _ acq _ _ => acq
  | _ => 0

def St.isSteal : St → Bool
  | .steal .. => true
  | _ => false

/-- In an operation on all CPUs. -/
def St.isAll : St → Bool
  | .all .. => true
  | _ => false

/-- Bytes given to the classes of CPU `c`: capacity times size. -/
def bytes (cfg : Cfg) (s : Slab.W) (c : Nat) : Nat :=
  ((List.range (cfg.slab.nc - 1)).map fun k => cfg.size (k + 1) * s.space c (k + 1)).sum

/-- Bytes of objects cached for CPU `c`. -/
def cachedBytes (cfg : Cfg) (s : Slab.W) (c : Nat) : Nat :=
  ((List.range (cfg.slab.nc - 1)).map fun k => cfg.size (k + 1) * (s.cell c (k + 1)).length).sum

def W.purse (w : W) (c : Nat) : Nat := (w.th.map fun st => st.purse c).sum
def W.owed (w : W) (c : Nat) : Nat := (w.th.map fun st => st.owed c).sum
def W.moving (w : W) : Nat := (w.th.map fun st => st.moving).sum

/-- Sum of a quantity over the CPUs. -/
def total (n : Nat) (f : Nat → Nat) : Nat := ((List.range n).map f).sum

/-- What callers, background thread, scheduler and backing cache guarantee. -/
def Pre (cfg : Cfg) (w : W) : Ev → Prop
  | .malloc i k => w.th[i]? = some .idle ∧ cfg.Used k ∧ ∃ t, w.s.thr[i]? = some t ∧ t.cpu ≠ none
  | .free i k o => w.th[i]? = some .idle ∧ (k, o) ∈ w.user ∧ ∃ t, w.s.thr[i]? = some t ∧ t.cpu ≠ none
  | .uncache i => w.th[i]? = some .idle ∧ ∃ t, w.s.thr[i]? = some t ∧ t.cpu ≠ none
  | .drain i c => w.th[i]? = some .idle ∧ c < cfg.slab.n
  | .classes i c => w.th[i]? = some .idle ∧ c < cfg.slab.n
  -- `ShuffleCpuCaches` runs on the background thread only
  | .steal i dst _ => w.th[i]? = some .idle ∧ dst < cfg.slab.n ∧ ∀ st ∈ w.th, st.isSteal = false
  | .resize i nb ncaps lim => w.th[i]? = some .idle ∧ Slab.Pre cfg.slab w.s (.call i (.resize nb ncaps lim))
  | .release i => w.th[i]? = some .idle ∧ Slab.Pre cfg.slab w.s (.call i .release)
  | .act i ch => (∃ t, w.s.thr[i]? = some t ∧ t.cpu ≠ none) ∧
      -- classes to shrink and to grow are classes
      ∃ st, w.th[i]? = some st ∧ (st.isAll = false → (2 ≤ ch.s.op → Valid cfg.slab.nc ch.s.k) ∧ (3 ≤ ch.s.op → cfg.Used ch.s.k))
  | .fetched i l => (∀ o ∈ l, GoodObj o) ∧
      ((∃ k, w.th[i]? = some (.direct k) ∧ l.length ≤ 1) ∨
        ∃ r, w.th[i]? = some (.fetch r) ∧ l.length ≤ min kMaxObjectsToMove (r.target - r.total))
  | .schedOut i => Slab.Pre cfg.slab w.s (.schedOut i)
  | .schedIn i c => Slab.Pre cfg.slab w.s (.schedIn i c)
  | .signal i => Slab.Pre cfg.slab w.s (.signal i)

/-- The step is not one at which the check of `ReleaseSlabMetadataForDrainedCpus` fails (see C45). -/
def CheckOK (cfg : Cfg) (w : W) : Ev → Prop
  | .act i ch => w.th[i]? = some (.all []) → checkRelease cfg w ch.s = true
  | _ => True

/-- Reachable states of caches with a budget of `limit` bytes per CPU. -/
inductive Reach (cfg : Cfg) (limit : Nat) : W → Prop
  | init {m b caps lim threads w} : Slab.Fits cfg.slab.nc caps lim → W.init cfg m b caps lim threads limit = some w →
      Reach cfg limit w
  | step {w e w' out} : Reach cfg limit w → Pre cfg w e → step cfg w e = some (w', out) → Reach cfg limit w'

/-- A configuration: at least one CPU; the budgets together fit a counter. -/
structure Cfg.OK (cfg : Cfg) (limit : Nat) : Prop where
  cpus : 0 < cfg.slab.n
  fits : cfg.slab.n * limit < 2 ^ 64

end Verif.CpuCache
