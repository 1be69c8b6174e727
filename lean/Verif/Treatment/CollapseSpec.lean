import Verif.Treatment.Model
import Verif.Filler.Spec
/-! What the theorems on collapsing and backing off speak of. -/
namespace Verif.Treatment
open Verif.Bitmap Verif.PageTracker Verif.Filler

/-- The hugepage is to be collapsed, time permitting: collapsing is on, the kernel's page flags say that it is not
backed by a huge page, and either every such hugepage is collapsed or it has fewer than 128 swapped and fewer than 64
unbacked native pages. -/
def wants (enable unfiltered : Bool) (p : Probe) : Bool :=
  enable && p.huge == some false && (unfiltered || (decide (p.nSwapped < 128) && decide (p.nUnbacked < 64)))

/-- A list up to and including its first element with `q`. -/
def through (q : Probe → Bool) : List Probe → List Probe
  | [] => []
  | p :: L => if q p then [p] else p :: through q L

/-- The hugepages a treatment tries to collapse: those to be collapsed, in order, up to the first that takes longer
than the threshold. -/
def tried (enable unfiltered : Bool) (slow : Nat) (L : List Probe) : List Probe :=
  through (fun p => decide (slow < p.cycles)) (L.filter (wants enable unfiltered))

/-- The attempt collapses the hugepage: the allocator has returned nothing of it meanwhile and the kernel agrees. -/
def good (p : Probe) : Bool := p.ok && !p.released

/-- The kinds of failure. -/
def Fails (p : Probe) : Err → Bool
  | .noMem => !good p && !p.released && p.errno == 12
  | .busy => !good p && !p.released && p.errno == 16
  | .inval => !good p && !p.released && p.errno == 22
  | .again => !good p && !p.released && p.errno == 11
  | .intr => !good p && !p.released && p.errno == 4
  | .other => !good p && (p.released || !([12, 16, 22, 11, 4].contains p.errno))

def errKinds : List Err := [.noMem, .busy, .inval, .again, .intr, .other]

/-- The figures of a number of attempts. -/
def figures (eligible : Nat) (T : List Probe) : Stats :=
  { eligible, attempted := T.length, succeeded := (T.filter good).length,
    errors := fun e => (T.filter (fun p => Fails p e)).length, timeTotal := (T.map Probe.cycles).sum,
    timeMax := (T.map Probe.cycles).foldr max 0 }

/-- A treatment: is collapsing wanted, of all hugepages; what the outside says of the selected hugepages. -/
structure Ev where
  want : Bool
  unfiltered : Bool
  probes : List Probe

/-- A history of treatments: the state, and which of them tried to collapse. -/
def runs (N slow fast : Nat) : B → List Ev → B × List Bool
  | b, [] => (b, [])
  | b, e :: L =>
    let r := pass N slow fast b e.want e.unfiltered e.probes
    let q := runs N slow fast r.1 L
    (q.1, r.2.2 :: q.2)

/-- What happens to the filler while the kernel works on collapsing hugepage `id`, selected by the treatment in
progress and with none of its pages released when it started (huge_page_tracker.h:549-558): allocations and frees of
pages, answers of the kernel, new hugepages, releases (which pass over hugepages being collapsed,
huge_page_filler.h:1398). -/
inductive During (N : Nat) (mode : Bool) (id : Nat) : F → Gh → Prop where
  | start {s g A B} : Filler.Reach N mode s g → g.treat = some (A, B) → id ∈ B → (s.tr id).relCount = 0 → During N mode id s g
  | contribute {s g s' t} (x loc n objs index u : Nat) (donated dense : Bool) : During N mode id s g →
      ¬ owned s g x → PageTracker.get N (PT.new N loc donated) n objs = some (t, loc * N + index, u) →
      (donated = true → n < N ∧ dense = false) → (dense = true → n = 1) →
      contribute N mode s x t donated dense = some s' →
      During N mode id s' { g with live := upd g.live x [⟨index, n, objs⟩], held := x :: g.held }
  | full {s g s'} (n objs : Nat) (dense : Bool) : During N mode id s g → tryGet N mode s n objs dense = some (s', none) →
      During N mode id s' g
  | get {s g s'} (n objs : Nat) (dense : Bool) (x index : Nat) (rel : Bool) : During N mode id s g →
      tryGet N mode s n objs dense = some (s', some (x, (s.tr x).firstPage N + index, rel)) →
      During N mode id s' { g with live := upd g.live x (⟨index, n, objs⟩ :: g.live x) }
  | put {s g s'} (x : Nat) (A : List Alloc) (a : Alloc) (B : List Alloc) (r : PutRes) : During N mode id s g →
      g.live x = A ++ a :: B → Filler.put N mode s x ((s.tr x).firstPage N + a.i) a.n a.objs = some (s', r) →
      During N mode id s' (g.put x (A ++ B) r)
  | answer {s g s'} (A : List (Nat × Nat)) (x rest : Nat) (B : List (Nat × Nat)) (ok : Bool) (r : Option Nat) :
      During N mode id s g → g.flight = A ++ (x, rest) :: B → putAnswer N mode s x rest ok = some (s', .done r) →
      During N mode id s' { g with flight := A ++ B }
  | release {s g s'} (desired : Nat) (adjusted : Option Nat) (skip : Nat → Bool) (ok : Nat → Nat → Bool) (total : Nat)
      (log : Log) : During N mode id s g → skip id = true → releasePages N mode s desired adjusted skip ok = some (s', total, log) →
      During N mode id s' g

end Verif.Treatment
