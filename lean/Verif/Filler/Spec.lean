import Verif.Filler.Model
import Verif.PageTracker.Spec
/-! Which list a hugepage belongs on, and the histories of a filler. -/
namespace Verif.Filler
open Verif.Bitmap Verif.RangeTracker Verif.PageTracker Verif.HintedLists

/-- The chunk of a sparse hugepage with `na` allocations: 7 for one allocation, one less each time `na` passes a power
of two, 0 for more than 64 allocations. -/
def Chunk (na c : Nat) : Prop := ∃ e, na ≤ 2 ^ e ∧ (∀ e', e' < e → 2 ^ e' < na) ∧ c = 7 - e

/-- The index within its array of lists of a hugepage that is not donated: by number of allocations, fullest first, if
it is dense; by longest free run, then by chunk, if it is sparse. -/
def Index (N : Nat) (t : PT) (i : Nat) : Prop :=
  (t.dense = true ∧ i = (N - t.free.nallocs) * 8) ∨
  (t.dense = false ∧ ∃ c, Chunk t.free.nallocs c ∧ i = t.free.longestFree * 8 + c)

/-- The hugepage may still be backed by one huge page: nothing of it was released and (when such hugepages are kept
apart) it is not known to be broken. -/
def Whole (mode : Bool) (t : PT) : Prop := t.relCount = 0 ∧ (t.unbroken = true ∨ mode = false)

/-- The array and list a hugepage's state calls for. -/
def Belongs (N : Nat) (mode : Bool) (t : PT) (k : LK) (i : Nat) : Prop :=
  (t.donated = true ∧ k = .donated ∧ i = t.free.longestFree) ∨
  (t.donated = false ∧ Index N t i ∧
    ((Whole mode t ∧ k = .regular t.dense) ∨
     (¬ Whole mode t ∧ t.free.nused + t.relCount < N ∧ k = .partialRel t.dense) ∨
     (¬ Whole mode t ∧ N ≤ t.free.nused + t.relCount ∧ k = .released t.dense)))

/-- Pages of a hugepage recorded as returned to the kernel. -/
def relPages (N : Nat) (t : PT) : Nat := (List.range N).countP (bitAt t.rel)

/-- Pages of a set of live runs. -/
def usedPages (L : List Alloc) : Nat := (L.map Alloc.n).sum

/-- A hugepage is broken up and no free page of it is backed. -/
def fullyReleased (N : Nat) (mode : Bool) (t : PT) : Bool :=
  !t.donated && !(t.relCount == 0 && (t.unbroken || !mode)) && decide (N ≤ t.free.nused + t.relCount)

/-- A hugepage is broken up and has backed free pages. -/
def partlyReleased (N : Nat) (mode : Bool) (t : PT) : Bool :=
  !t.donated && !(t.relCount == 0 && (t.unbroken || !mode)) && decide (t.free.nused + t.relCount < N)

/-- What is known about a filler's history: the live runs of every tracker, the hugepages with live runs, the `Put`s
waiting for the kernel (tracker, pages not yet released), the treatment in progress (sampled and collapse selection). -/
structure Gh where
  live : Nat → List Alloc
  held : List Nat
  flight : List (Nat × Nat)
  treat : Option (List Nat × List Nat)

def Gh.init : Gh := ⟨fun _ => [], [], [], none⟩

/-- The trackers the filler still refers to. -/
def owned (s : F) (g : Gh) (id : Nat) : Prop := id ∈ g.held ∨ id ∈ g.flight.map Prod.fst ∨ id ∈ s.freed

/-- The waiting `Put`s after one more returned `r`. -/
def wait (g : Gh) (id : Nat) : PutRes → List (Nat × Nat)
  | .wait rest => (id, rest) :: g.flight
  | .done _ => g.flight

/-- The history after a `Put` of a run, leaving tracker `id` with the live runs `L`. -/
def Gh.put (g : Gh) (id : Nat) (L : List Alloc) (r : PutRes) : Gh :=
  { g with live := upd g.live id L, held := if L = [] then g.held.erase id else g.held, flight := wait g id r }

/-- Reachable fillers.  Callers contribute trackers the filler does not have, with one live run; put back live runs
only; ask for dense runs one page at a time.  Calls of the kernel may have any outcome and waiting `Put`s may be
answered in any order.  There is one treatment at a time (background.cc:104-105 runs them under a mutex), it selects
hugepages on the lists, and the trackers it left fully freed are fetched when it is over
(huge_page_aware_allocator.h:1093-1098). -/
inductive Reach (N : Nat) (mode : Bool) : F → Gh → Prop where
  | init : Reach N mode (F.init N) Gh.init
  | contribute {s g s' t} (id loc n objs index u : Nat) (donated dense : Bool) : Reach N mode s g →
      ¬ owned s g id → PageTracker.get N (PT.new N loc donated) n objs = some (t, loc * N + index, u) →
      (donated = true → n < N ∧ dense = false) → (dense = true → n = 1) →
      contribute N mode s id t donated dense = some s' →
      Reach N mode s' { g with live := upd g.live id [⟨index, n, objs⟩], held := id :: g.held }
  | full {s g s'} (n objs : Nat) (dense : Bool) : Reach N mode s g → tryGet N mode s n objs dense = some (s', none) →
      Reach N mode s' g
  | get {s g s'} (n objs : Nat) (dense : Bool) (id index : Nat) (rel : Bool) : Reach N mode s g →
      tryGet N mode s n objs dense = some (s', some (id, (s.tr id).firstPage N + index, rel)) →
      Reach N mode s' { g with live := upd g.live id (⟨index, n, objs⟩ :: g.live id) }
  | put {s g s'} (id : Nat) (A : List Alloc) (a : Alloc) (B : List Alloc) (r : PutRes) : Reach N mode s g →
      g.live id = A ++ a :: B → put N mode s id ((s.tr id).firstPage N + a.i) a.n a.objs = some (s', r) →
      Reach N mode s' (g.put id (A ++ B) r)
  | answer {s g s'} (A : List (Nat × Nat)) (id rest : Nat) (B : List (Nat × Nat)) (ok : Bool) (r : Option Nat) :
      Reach N mode s g → g.flight = A ++ (id, rest) :: B → putAnswer N mode s id rest ok = some (s', .done r) →
      Reach N mode s' { g with flight := A ++ B }
  | release {s g s'} (desired : Nat) (adjusted : Option Nat) (skip : Nat → Bool) (ok : Nat → Nat → Bool) (total : Nat)
      (log : Log) : Reach N mode s g → releasePages N mode s desired adjusted skip ok = some (s', total, log) →
      Reach N mode s' g
  | treatBegin {s g} (sampled collapse : List Nat) : Reach N mode s g → g.treat = none →
      (∀ id ∈ sampled, id ∈ g.held) → (∀ id ∈ collapse, id ∈ g.held) → collapse.Nodup →
      Reach N mode (treatBegin s sampled collapse) { g with treat := some (sampled, collapse) }
  | treatEnd {s g s'} (sampled : List Nat) (obs : List Obs) (stale : Bool) (ok : Nat → Nat → Bool) (log : Log) :
      Reach N mode s g → g.treat = some (sampled, obs.map Obs.id) → (∀ o ∈ obs, WF N o.unbacked) →
      treatEnd N mode stale s sampled obs ok = some (s', log) → Reach N mode s' { g with treat := none }
  | fetch {s g} : Reach N mode s g → g.treat = none → Reach N mode (fetchFreed s).1 g

/-! ### Vocabulary of the theorems -/

/-- `n` pages from `i` on lie in the hugepage and belong to no live run. -/
def FreeRun (N : Nat) (L : List Alloc) (i n : Nat) : Prop :=
  i + n ≤ N ∧ ∀ a ∈ L, ∀ j, i ≤ j → j < i + n → ¬ a.Has j

/-- A treatment in progress has selected the hugepage. -/
def Pinned (g : Gh) (id : Nat) : Prop := ∃ A B, g.treat = some (A, B) ∧ (id ∈ A ∨ id ∈ B)

/-- The arrays searched, in order of preference. -/
def order (dense : Bool) : List LK :=
  .regular dense :: ((if dense then [] else [.donated]) ++ [.partialRel dense, .released dense])

/-- A call concerns a hugepage the filler holds, lies inside it and touches no page of a live run. -/
def CallOk (N : Nat) (g : Gh) (x : Nat × Call) : Prop :=
  x.1 ∈ g.held ∧ 0 < x.2.n ∧ x.2.i + x.2.n ≤ N ∧ ∀ a ∈ g.live x.1, ∀ j, x.2.Has j → ¬ a.Has j

/-- The pages of the calls that succeeded. -/
def logSum (log : Log) : Nat := okSum (log.map Prod.snd)

/-- Page `j` of hugepage `x` is in a call of the log that succeeded. -/
def InLog (log : Log) (x j : Nat) : Prop := ∃ c, (x, c) ∈ log ∧ c.ok = true ∧ c.Has j

/-- What the treatment was told to be unbacked: hugepage and bitmap. -/
abbrev UB := List (Nat × List Word)

/-- Page `j` of hugepage `x`, not in use, is in a bitmap of unbacked pages. -/
def InUB (N : Nat) (s : F) (ub : UB) (x j : Nat) : Prop := ∃ w, (x, w) ∈ ub ∧ j < N ∧ ¬ (s.tr x).Used j ∧ bitAt w j = true

end Verif.Filler
