import Verif.ThreadHeap.Model
/-! What users of the heap see, what they, the kernel and the scheduler may do, and all histories. -/
namespace Verif.ThreadHeap
open Verif.Span (Geo Mem)
open Verif.PageHeap (HP Run)
open Verif.HugeAddressMap (Rng Cov)

/-- A block: first byte and number of bytes. -/
structure Block where
  addr : Nat
  size : Nat
deriving DecidableEq, Repr

/-- No byte in common. -/
def Block.Apart (b c : Block) : Prop := b.addr + b.size ≤ c.addr ∨ c.addr + c.size ≤ b.addr

/-- The 16-bit word number `a` is in the block. -/
def Block.Has (b : Block) (a : Nat) : Prop := b.addr ≤ 2 * a ∧ 2 * a < b.addr + b.size

/-- The runs of pages that are users'. -/
def Heap.bigs (h : Heap) : List Run := h.led.filterMap fun x => match x.1 with | .big _ => some x.2 | _ => none

/-- The bytes of a run; of an object of class `x.1`. -/
def runBlock (cfg : Cfg) (r : Run) : Block := ⟨r.p * 2 ^ cfg.ps, r.n * 2 ^ cfg.ps⟩
def objBlock (cfg : Cfg) (x : Nat × Nat) : Block := ⟨x.2, (cfg.geo x.1).size⟩

/-- The objects in the thread caches. -/
def Heap.cached (cfg : Cfg) (h : Heap) : List (Nat × Nat) := h.tc.heaps.flatMap fun t => t.objects cfg.tc

/-- The blocks users have: objects of a size class (the whole object) and runs of pages. -/
def Heap.live (cfg : Cfg) (h : Heap) : List Block :=
  h.tc.user.map (objBlock cfg) ++ h.bigs.map (runBlock cfg)

/-- The runs a step of a page heap takes, and gives. -/
def oldRun : PageHeap.Ev → List Run
  | .delete r _ _ _ => [r]
  | _ => []

def newRun : PageHeap.Ev → PageHeap.Out → List Run
  | .delete _ _ _ _, _ => []
  | _, .run r _ => [r]
  | _, _ => []

def Owner.isBig : Owner → Bool
  | .big _ => true
  | _ => false

/-- The blocks a step takes from users, and gives to users. -/
def Ev.freed (cfg : Cfg) : Ev → List Block
  | .tc e _ _ => e.freed.map (objBlock cfg)
  | .page _ e who _ => if who.isBig then (oldRun e).map (runBlock cfg) else []
  | _ => []

def returned (cfg : Cfg) : Ev → Out → List Block
  | _, .tc o => o.returned.map (objBlock cfg)
  | .page _ e who _, .page _ r => if who.isBig then (newRun e r.out).map (runBlock cfg) else []
  | _, _ => []

/-- The page of a word. -/
def pg (cfg : Cfg) (a : Nat) : Nat := 2 * a / 2 ^ cfg.ps

/-- A configuration: that of the per-thread caches; the classes in use have spans as `Verif/Span` and `Verif/SizeMap` say. -/
structure Cfg.OK (cfg : Cfg) : Prop where
  tc : cfg.tc.OK
  kMin : cfg.tc.kMin < 2 ^ 63
  N2 : 2 ≤ cfg.N
  H0 : 0 < cfg.H
  ps : 1 ≤ cfg.ps
  geo : ∀ k, cfg.tc.Used k → (cfg.geo k).OK ∧ (cfg.geo k).pageShift = cfg.ps

/-- The caller of a page-heap event: a request is made by a `Populate` of a class of this tag, for a span of this class,
or by a user; a run is returned by who has it. -/
def Caller (cfg : Cfg) (h : Heap) (t : Nat) (e : PageHeap.Ev) (who : Owner) : Prop :=
  (∀ n, e.pages (h.page t) = some n →
    (∃ k, who = .fresh k ∧ cfg.tc.Used k ∧ cfg.tag k = t ∧ n = (cfg.geo k).numPages) ∨ who = .big t) ∧
  ∀ r a b c, e = .delete r a b c → (who, r) ∈ h.led ∧ ((∃ k, who = .dying k ∧ cfg.tag k = t) ∨ who = .big t)

/-- What users, scheduler, background threads and kernel guarantee.  Users free what they have, once, and write to their
blocks only; a thread that waits does not ask again; the kernel hands out memory it has not handed out before and takes
away only what it is told to. -/
def Pre (cfg : Cfg) (h : Heap) : Ev → Prop
  | .tc e i _ => ThreadCache.Pre cfg.tc h.tc e ∧ (∀ j l, e ≠ .fetched j l) ∧
      ∀ c k l, ThreadCache.step cfg.tc h.tc e = some (c, .toBacking k l) → i < (h.tier k).t.length
  | .ask th i _ _ => ∃ k n, h.tc.asks th = some (k, n) ∧ th ∉ h.wait k ∧ i < (h.tier k).t.length
  | .answer k j run => cfg.tc.Used k ∧ j < (h.wait k).length ∧ ∀ r, run = some r → (Owner.fresh k, r) ∈ h.led
  | .tier k e => cfg.tc.Used k ∧ e.Inner ∧ TransferCache.Pre (cfg.geo k) (h.tier k) e
  | .page t e who w => e.Pre cfg.H cfg.N (h.ob t) (h.runs t) (h.page t) ∧
      (∀ r ∈ e.sys, ∀ t' q, r.Has q → ¬ Cov (h.ob t') q) ∧ Caller cfg h t e who ∧
      ∀ s r, (h.page t).step cfg.H cfg.N cfg.mode e = some (s, r) → ∀ a, w a ≠ h.mem a →
        (∃ c ∈ r.calls, c.Has (pg cfg a)) ∨ Cov r.got (pg cfg a / cfg.N)
  | .link w => ∀ a, w a ≠ h.mem a → ∃ x ∈ h.cached cfg, (objBlock cfg x).Has a
  | .write w => ∀ a, w a ≠ h.mem a → ∃ b ∈ h.live cfg, b.Has a
  | .kernel w => ∀ a, w a ≠ h.mem a → ∃ t, (h.page t).leaving cfg.N (pg cfg a)

/-- All histories: any number of threads, any interleaving of their steps, of the background threads and of the
scheduler; transfer caches of any admissible capacities, any contents of memory at the beginning. -/
inductive Reach (cfg : Cfg) : Heap → Prop
  | init (t : Nat → List TransferCache.TC) (more : Nat → Bool) (reg : Nat → Nat → HugeRegion.R) (w : Mem) :
      (∀ k, ∀ x ∈ t k, ∃ cap max slots, x = TransferCache.TC.new cap max slots ∧ cap ≤ max) →
      Reach cfg
        { tc := ThreadCache.W.init cfg.tc, tier := fun k => ⟨⟨CentralFreeList.init w, [], []⟩, t k, [], [], []⟩, wait := fun _ => [],
          page := fun i => HP.init cfg.N (more i) (reg i), ob := fun _ => [], runs := fun _ => [], led := [], mem := w }
  | step {h h' : Heap} {o : Out} (e : Ev) : Reach cfg h → Pre cfg h e → step cfg h e = some (h', o) → Reach cfg h'

end Verif.ThreadHeap
