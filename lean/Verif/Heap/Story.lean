import Verif.Heap.Props
import Verif.CpuCache.Story
/-! The hypotheses of the theorems about the composed heap are met: a history in which every part takes part. -/
namespace Verif.Heap
open Verif.Span (Geo Mem IsObj InObj)
open Verif.PageHeap (HP Run)
open Verif.HugeAddressMap (Rng Cov)

namespace Story

/-- An event of a story; memory changes at no word, or at the one given. -/
inductive Move
  | cpu (e : CpuCache.Ev) (i : Nat) (hint : Bool)
  | ask (th i : Nat) (hint hint0 : Bool)
  | answer (k j : Nat) (run : Option Run)
  | tier (k : Nat) (e : TransferCache.Ev)
  | page (t : Nat) (e : PageHeap.Ev) (who : Owner) (zap : Option Nat)
  | write (a v : Nat)
  | kernel (a : Nat)

def set (w : Mem) (a v : Nat) : Mem := fun x => if x = a then v else w x

def Move.ev (h : Heap) : Move → Ev
  | .cpu e i b => .cpu e i b
  | .ask th i a b => .ask th i a b
  | .answer k j r => .answer k j r
  | .tier k e => .tier k e
  | .page t e who none => .page t e who h.mem
  | .page t e who (some a) => .page t e who (set h.mem a 0)
  | .write a v => .write (set h.mem a v)
  | .kernel a => .kernel (set h.mem a 0)

def innerB : TransferCache.Ev → Bool
  | .land _ _ | .plunder _ | .plunderNext _ | .plunderStop _ | .shrink _ | .grow _ => true
  | _ => false

def covB (l : List Rng) (q : Nat) : Bool := l.any fun r => decide (r.s ≤ q ∧ q < r.s + r.n)

/-- No two of the ranges meet. -/
def apartB (r : Rng) (l : List Rng) : Bool := l.all fun q => decide (r.s + r.n ≤ q.s ∨ q.s + q.n ≤ r.s)

def callerB (cfg : Cfg) (h : Heap) (t : Nat) (e : PageHeap.Ev) (who : Owner) : Bool :=
  (match e.pages (h.page t) with
   | none => true
   | some n => match who with
     | .fresh k => CpuCache.usedB cfg.cpu k && decide (cfg.tag k = t ∧ n = (cfg.geo k).numPages)
     | .big t' => decide (t' = t)
     | _ => false) &&
  match e with
  | .delete r _ _ _ => h.led.contains (who, r) &&
    match who with
    | .dying k => decide (cfg.tag k = t)
    | .big t' => decide (t' = t)
    | _ => false
  | _ => true

/-- An executable check of the precondition; the tags have three bits. -/
def preB (cfg : Cfg) (h : Heap) : Move → Bool
  | .cpu e i _ => CpuCache.preB cfg.cpu h.cpu e &&
    (match e with | .fetched _ _ => false | _ => true) &&
    match CpuCache.step cfg.cpu h.cpu e with
    | some (_, .toBacking k _) => decide (i < (h.tier k).t.length)
    | _ => true
  | .ask th i _ _ =>
    match (h.cpu.th[th]?).bind CpuCache.St.asks with
    | some (k, _) => decide (th ∉ h.wait k ∧ i < (h.tier k).t.length)
    | none => false
  | .answer k j run => CpuCache.usedB cfg.cpu k && decide (j < (h.wait k).length) &&
    match run with
    | some r => h.led.contains (.fresh k, r)
    | none => true
  | .tier k e => CpuCache.usedB cfg.cpu k && innerB e && TransferCache.preB (cfg.geo k) (h.tier k) e
  | .page t e who zap => decide (t < 8) && PageHeap.preB cfg.H cfg.N (h.ob t) (h.runs t) (h.page t) e &&
    (e.sys.all fun r => (List.range 8).all fun t => apartB r (h.ob t)) && callerB cfg h t e who &&
    match zap with
    | none => true
    | some a =>
      match (h.page t).step cfg.H cfg.N cfg.mode e with
      | some (_, r) => (r.calls.any fun c => decide (c.p ≤ pg cfg a ∧ pg cfg a < c.p + c.n)) || covB r.got (pg cfg a / cfg.N)
      | none => true
  | .write a _ => (h.live cfg).any fun b => decide (b.addr ≤ 2 * a ∧ 2 * a < b.addr + b.size)
  | .kernel a => (List.range 8).any fun t => covB (h.page t).cache.busy (pg cfg a / cfg.N)

variable {cfg : Cfg} {limit : Nat} {h : Heap}

theorem covB_iff {l : List Rng} {q : Nat} : covB l q = true ↔ Cov l q := by
  simp [covB, Cov, HugeAddressMap.Rng.Has]

theorem apartB_ok {r : Rng} {l : List Rng} (h : apartB r l = true) {q : Nat} (hq : r.Has q) : ¬ Cov l q := by
  rintro ⟨x, hx, hxq⟩
  have := List.all_eq_true.1 h x hx
  simp only [decide_eq_true_eq] at this
  have h1 := hq.1; have h2 := hq.2; have h3 := hxq.1; have h4 := hxq.2
  omega

theorem callerB_ok {t : Nat} {e : PageHeap.Ev} {who : Owner} (hb : callerB cfg h t e who = true) : Caller cfg h t e who := by
  unfold callerB at hb
  rw [Bool.and_eq_true] at hb
  obtain ⟨h1, h2⟩ := hb
  constructor
  · intro n hn
    rw [hn] at h1
    cases who with
    | fresh k =>
      simp only [Bool.and_eq_true, decide_eq_true_eq] at h1
      exact Or.inl ⟨k, rfl, CpuCache.usedB_ok h1.1, h1.2⟩
    | big t' => right; simp only [decide_eq_true_eq] at h1; rw [h1]
    | lent k => cases h1
    | dying k => cases h1
  · rintro r a b c rfl
    simp only [Bool.and_eq_true, List.contains_iff_mem] at h2
    refine ⟨h2.1, ?_⟩
    cases who with
    | dying k => exact Or.inl ⟨k, rfl, by simpa using h2.2⟩
    | big t' => right; have := h2.2; simp only [decide_eq_true_eq] at this; rw [this]
    | lent k => cases h2.2
    | fresh k => cases h2.2

theorem set_ne {w : Mem} {a v x : Nat} (h : set w a v x ≠ w x) : x = a := by
  unfold set at h; split at h
  · next hx => exact hx
  · exact absurd rfl h

theorem innerB_ok {e : TransferCache.Ev} (h : innerB e = true) : e.Inner := by
  cases e <;> first | (simp [innerB] at h; done) | trivial

theorem preB_ok (I : Inv cfg limit [] h) (hc : cfg.OK limit) (ho : ∀ t, 8 ≤ t → h.ob t = []) {m : Move}
    (hb : preB cfg h m = true) : Pre cfg h (m.ev h) := by
  cases m with
  | cpu e i b =>
    simp only [preB, Bool.and_eq_true] at hb
    refine ⟨CpuCache.preB_ok (I.cpu.K hc.cpu) hb.1.1, fun j l he => ?_, fun c k l hs => ?_⟩
    · subst he; cases hb.1.2
    · have := hb.2; rw [hs] at this; simpa using this
  | ask th i a b =>
    simp only [preB] at hb
    split at hb
    · next k n hk =>
      obtain ⟨st, h1, h2⟩ := Option.bind_eq_some_iff.1 hk
      simp only [decide_eq_true_eq] at hb
      exact ⟨st, k, n, h1, h2, hb.1, hb.2⟩
    · cases hb
  | answer k j run =>
    simp only [preB, Bool.and_eq_true, decide_eq_true_eq] at hb
    refine ⟨CpuCache.usedB_ok hb.1.1, hb.1.2, fun r hr => ?_⟩
    subst hr
    exact List.contains_iff_mem.1 hb.2
  | tier k e =>
    simp only [preB, Bool.and_eq_true] at hb
    exact ⟨CpuCache.usedB_ok hb.1.1, innerB_ok hb.1.2, TransferCache.preB_ok hb.2⟩
  | page t e who zap =>
    simp only [preB, Bool.and_eq_true, decide_eq_true_eq, List.all_eq_true] at hb
    obtain ⟨⟨⟨⟨ht, h1⟩, h2⟩, h3⟩, h4⟩ := hb
    have hfresh : ∀ r ∈ e.sys, ∀ t' q, r.Has q → ¬ Cov (h.ob t') q := by
      intro r hr t' q hq
      rcases Nat.lt_or_ge t' 8 with hlt | hge
      · exact apartB_ok (h2 r hr t' (List.mem_range.2 hlt)) hq
      · rw [ho t' hge]; rintro ⟨_, hm, _⟩; cases hm
    cases zap with
    | none => exact ⟨PageHeap.preB_ok h1, hfresh, callerB_ok h3, fun _ _ _ a ha => absurd rfl ha⟩
    | some a =>
      refine ⟨PageHeap.preB_ok h1, hfresh, callerB_ok h3, fun s r hs x hx => ?_⟩
      have := set_ne hx
      subst this
      simp only [hs, Bool.or_eq_true] at h4
      rcases h4 with h4 | h4
      · left
        obtain ⟨c, hc1, hc2⟩ := List.any_eq_true.1 h4
        exact ⟨c, hc1, by simpa [PageHeap.Call.Has] using hc2⟩
      · right; exact covB_iff.1 h4
  | write a v =>
    intro x hx
    have := set_ne hx
    subst this
    simp only [preB] at hb
    obtain ⟨b, h1, h2⟩ := List.any_eq_true.1 hb
    exact ⟨b, h1, by simpa [Block.Has] using h2⟩
  | kernel a =>
    intro x hx
    have := set_ne hx
    subst this
    obtain ⟨t, -, hb⟩ := List.any_eq_true.1 (show ((List.range 8).any fun t => covB (h.page t).cache.busy (pg cfg x / cfg.N)) = true from hb)
    exact ⟨t, Or.inl (covB_iff.1 hb)⟩

def runAll (cfg : Cfg) : Heap → List Move → Option (Heap × List Out)
  | h, [] => some (h, [])
  | h, m :: ms =>
    if preB cfg h m then
      (step cfg h (m.ev h)).bind fun (h', o) => (runAll cfg h' ms).map fun (z, os) => (z, o :: os)
    else none

theorem step_ob {m : Move} {h' : Heap} {o : Out} (ho : ∀ t, 8 ≤ t → h.ob t = []) (hb : preB cfg h m = true)
    (hs : step cfg h (m.ev h) = some (h', o)) : ∀ t, 8 ≤ t → h'.ob t = [] := by
  have tier : ∀ {h0 h1 : Heap} {k e o'}, h0.onTier cfg k e = some (h1, o') → h1.ob = h0.ob := by
    intro h0 h1 k e o' hs
    unfold Heap.onTier at hs
    obtain ⟨⟨y, o'⟩, -, h2⟩ := Option.map_eq_some_iff.1 hs
    cases h2; rfl
  have del : ∀ {h0 h1 : Heap} {th l o'}, h0.deliver cfg th l = some (h1, o') → h1.ob = h0.ob := by
    intro h0 h1 th l o' hs
    unfold Heap.deliver at hs
    obtain ⟨⟨y, o'⟩, -, h2⟩ := Option.map_eq_some_iff.1 hs
    cases h2; rfl
  suffices hh : h'.ob = h.ob ∨ ∃ t0, t0 < 8 ∧ ∀ t, t ≠ t0 → h'.ob t = h.ob t by
    intro t ht
    rcases hh with hh | ⟨t0, h0, hh⟩
    · rw [hh]; exact ho t ht
    · rw [hh t (by omega)]; exact ho t ht
  cases m with
  | cpu e i b =>
    simp only [Move.ev, step] at hs
    obtain ⟨⟨c, o'⟩, -, h2⟩ := Option.bind_eq_some_iff.1 hs
    left
    split at h2
    · obtain ⟨⟨h1, o1⟩, h3, h4⟩ := Option.map_eq_some_iff.1 h2
      cases h4; rw [tier h3]
    · cases h2; rfl
  | ask th i a b =>
    simp only [Move.ev, step] at hs
    obtain ⟨⟨k, n⟩, -, h2⟩ := Option.bind_eq_some_iff.1 hs
    obtain ⟨⟨h1, o1⟩, h3, h4⟩ := Option.bind_eq_some_iff.1 h2
    left
    dsimp only at h4
    split at h4
    · rw [del h4, tier h3]
    · cases h4; exact (tier h3 :)
  | answer k j run =>
    simp only [Move.ev, step] at hs
    obtain ⟨th, -, h2⟩ := Option.bind_eq_some_iff.1 hs
    obtain ⟨⟨h1, o1⟩, h3, h4⟩ := Option.bind_eq_some_iff.1 h2
    left
    rw [del h4, ← tier h3]
  | tier k e =>
    simp only [Move.ev, step] at hs
    obtain ⟨⟨h1, o1⟩, h3, h4⟩ := Option.map_eq_some_iff.1 hs
    cases h4
    exact Or.inl (tier h3)
  | page t e who zap =>
    have ht : t < 8 := by
      simp only [preB, Bool.and_eq_true, decide_eq_true_eq] at hb
      exact hb.1.1.1.1
    right
    refine ⟨t, ht, fun t' hne => ?_⟩
    cases zap <;>
    · simp only [Move.ev, step] at hs
      obtain ⟨⟨s, r⟩, h3, h4⟩ := Option.map_eq_some_iff.1 hs
      cases h4
      exact upd_ne _ _ hne
  | write a v => cases hs; exact Or.inl rfl
  | kernel a => cases hs; exact Or.inl rfl

theorem runAll_reach (hc : cfg.OK limit) : ∀ (ms : List Move) (x y : Heap) (os : List Out), Reach cfg limit x →
    (∀ t, 8 ≤ t → x.ob t = []) → runAll cfg x ms = some (y, os) → Reach cfg limit y ∧ ∀ t, 8 ≤ t → y.ob t = []
  | [], x, y, os, h, ho, e => by simp only [runAll, Option.some.injEq, Prod.mk.injEq] at e; rw [← e.1]; exact ⟨h, ho⟩
  | m :: ms, x, y, os, h, ho, e => by
    unfold runAll at e
    split at e
    · rename_i hp
      obtain ⟨⟨x', o⟩, h1, h2⟩ := Option.bind_eq_some_iff.1 e
      obtain ⟨⟨z, os'⟩, h3, h4⟩ := Option.map_eq_some_iff.1 h2
      simp only [Prod.mk.injEq] at h4
      rw [← h4.1]
      exact runAll_reach hc ms x' z os' (h.step _ (preB_ok (h.inv hc) hc ho hp) h1) (step_ob ho hp h1) h3
    · cases e

/-- Two CPUs; class 1 of 4480-byte objects, nine in a span of five pages of 8 KiB; class 2 of 8960-byte objects, two in a
span of three pages; hugepages of 8 pages; tags 0 and 1. -/
def cfg0 : Cfg where
  cpu := { slab := ⟨2, 3, false⟩, size := fun k => 4480 * k, batch := fun k => if k = 1 then 2 else 1, bypass := fun _ => false }
  geo := fun k => if k = 1 then ⟨13, 12, false, 0, 5, 4480, 9⟩ else ⟨13, 12, false, 0, 3, if k = 2 then 8960 else 0, 2⟩
  tag := fun k => if k = 1 then 0 else 1
  H := 4
  N := 8
  mode := false
  ps := 13

theorem ok0 : cfg0.OK 35840 where
  cpu := ⟨by decide, by decide⟩
  N2 := by decide
  H0 := by decide
  ps := by decide
  geo := fun k hk => by
    have : k = 1 ∨ k = 2 := by have := hk.1.1; have : k < 3 := hk.1.2; omega
    rcases this with rfl | rfl
    · exact ⟨by constructor <;> decide, rfl⟩
    · exact ⟨by constructor <;> decide, rfl⟩

def caps0 : Nat → Nat := fun k => if k = 1 then 4 else 1
def mem0 : Slab.Mem := ⟨fun _ _ _ => ⟨9, 4⟩, fun _ _ i => 7 * i⟩
theorem fits0 : Slab.Fits cfg0.cpu.slab.nc caps0 16 := Slab.fitsB_ok (by decide +kernel)
theorem init_some : (CpuCache.W.init cfg0.cpu mem0 0 caps0 16 2 35840).isSome = true := by decide +kernel

def tcs : List TransferCache.TC := [.new 4 8 (fun _ => 99), .new 2 2 (fun _ => 99)]

def reg0 : Nat → HugeRegion.R := fun _ => HugeRegion.R.new 4 8 0

def start : Heap :=
  { cpu := (CpuCache.W.init cfg0.cpu mem0 0 caps0 16 2 35840).get init_some
    tier := fun _ => ⟨⟨CentralFreeList.init (fun a => a % 7), [], []⟩, tcs, [], [], []⟩
    wait := fun _ => []
    page := fun _ => HP.init 8 false reg0
    ob := fun _ => [], runs := fun _ => [], led := [], mem := fun a => a % 7 }

theorem start_reach : Reach cfg0 35840 start :=
  Reach.init (m := mem0) (b := 0) (threads := 2) (fun _ => tcs) (fun _ => false) (fun _ => reg0) (fun a => a % 7) fits0
    (Option.some_get init_some).symm (by
      intro _ c hc
      simp only [tcs, List.mem_cons, List.not_mem_nil, or_false] at hc
      rcases hc with rfl | rfl
      · exact ⟨4, 8, _, rfl, by decide⟩
      · exact ⟨2, 2, _, rfl, by decide⟩)

def acts (i n : Nat) (op := 0) (k := 1) (succ := 0) (cap := 1) (shard := 0) : List Move :=
  (CpuCache.Story.acts i n op k succ cap).map fun e => .cpu e shard true

/-- Thread 0 on CPU 0 allocates from class 1: nothing is cached anywhere, so a span comes from the page heap. -/
def miss : List Move :=
  [.cpu (.schedIn 0 0) 0 true, .cpu (.malloc 0 1) 0 true] ++ acts 0 30 0 1 1 ++ acts 0 1 0 1 1 6 ++
  [.ask 0 1 true true,
   .page 0 (.new 5 9 false false false none (some ⟨10, 8⟩) 0 0) (.fresh 1) none,
   .answer 1 0 (some ⟨80, 5, 9, true⟩)] ++ acts 0 9 0 1 1 4

/-- Thread 1 takes twenty pages, and writes to them; thread 0 to its object. -/
def big : List Move :=
  [.page 1 (.new 20 1 false false false none (some ⟨40, 8⟩) 0 0) (.big 1) none, .write 1312000 5, .write 335000 6]

/-- Thread 1 on CPU 1 allocates from class 2; the page heap of tag 1 has room left in a hugepage. -/
def miss2 : List Move :=
  [.cpu (.schedIn 1 1) 0 true, .cpu (.malloc 1 2) 0 true] ++ acts 1 31 0 2 1 8 ++
  [.ask 1 0 true true, .page 1 (.new 3 2 false false false none none 0 0) (.fresh 2) none,
   .answer 2 0 (some ⟨340, 3, 2, false⟩)] ++ acts 1 8 0 2 1 4 ++ [.write 1397200 7]

/-- The twenty pages are freed.  The page heap of tag 1 gives two hugepages back to the kernel, which takes the contents
away, and then the free pages of the hugepage in which class 2 has its span. -/
def big2 : List Move :=
  [.page 1 (.delete ⟨320, 20, 1, true⟩ false 0 (fun _ => true)) (.big 1) none,
   .page 1 (.releaseCached 16 0) (.big 1) none, .kernel 1312000, .page 1 (.cacheAnswer 0 true) (.big 1) none,
   .page 1 (.releaseRest 100 16 ⟨true, 0, true, false, 0, none, fun _ => false, fun _ _ => true, fun _ _ => true⟩)
     (.big 1) (some 1376300)]

/-- The objects are freed; both frees overflow to a transfer cache. -/
def frees : List Move :=
  [.cpu (.free 0 1 668800) 0 true] ++ acts 0 14 0 1 0 4 ++ [.cpu (.free 1 2 2794240) 0 true] ++ acts 1 14 0 1 0 4

/-- Both CPUs are drained. -/
def drains : List Move :=
  [.cpu (.drain 0 0) 0 true] ++ acts 0 20 1 1 ++ [.cpu (.drain 1 1) 0 true] ++ acts 1 20 1 1

/-- The transfer caches are plundered, the central free lists have two empty spans, the page heaps get them back. -/
def ends : List Move :=
  [.tier 1 (.plunder 0), .tier 1 (.plunder 0), .tier 2 (.plunder 0), .tier 2 (.plunder 0), .tier 1 (.land 0 true),
   .tier 2 (.land 0 true), .tier 1 (.plunderNext 0), .tier 1 (.land 0 true), .tier 2 (.plunderNext 0), .tier 2 (.land 0 true),
   .page 1 (.delete ⟨340, 3, 2, false⟩ false 0 (fun _ => true)) (.dying 2) none,
   .page 0 (.delete ⟨80, 5, 9, true⟩ false 0 (fun _ => true)) (.dying 1) none,
   .page 1 (.putAnswer 0 true false 0) (.big 1) none]

/-- The state a story leads to. -/
def after (ms : List Move) (hs : (runAll cfg0 start ms).isSome = true) : Heap := ((runAll cfg0 start ms).get hs).1

theorem after_reach (ms : List Move) (hs : (runAll cfg0 start ms).isSome = true) :
    Reach cfg0 35840 (after ms hs) ∧ ∀ t, 8 ≤ t → (after ms hs).ob t = [] :=
  runAll_reach ok0 ms start _ _ start_reach (fun _ _ => rfl) (Option.some_get hs).symm

/-- What a story's next move does. -/
theorem after_pre (ms : List Move) (hs : (runAll cfg0 start ms).isSome = true) {m : Move}
    (hp : preB cfg0 (after ms hs) m = true) : Pre cfg0 (after ms hs) (m.ev (after ms hs)) :=
  preB_ok ((after_reach ms hs).1.inv ok0) ok0 (after_reach ms hs).2 hp

set_option maxRecDepth 20000

/-- Up to the last step of the allocation from class 2. -/
def early : List Move := miss ++ big ++ miss2.take 42
def three : List Move := miss ++ big ++ miss2
/-- Up to the end of the release of the two hugepages. -/
def freed : List Move := three ++ big2.take 4
def whole : List Move := three ++ big2 ++ frees ++ drains ++ ends

theorem early_some : (runAll cfg0 start early).isSome = true := by decide +kernel
theorem three_some : (runAll cfg0 start three).isSome = true := by decide +kernel
theorem freed_some : (runAll cfg0 start freed).isSome = true := by decide +kernel
theorem whole_some : (runAll cfg0 start whole).isSome = true := by decide +kernel

/-- `live_blocks_disjoint`: three live blocks, objects of two classes and a run of pages, two of them of one tag; each
has been written to. -/
example : (after three three_some).live cfg0 = [⟨2794240, 8960⟩, ⟨668800, 4480⟩, ⟨2621440, 163840⟩] ∧
    (after three three_some).mem 1397200 = 7 ∧ (after three three_some).mem 335000 = 6 ∧ (after three three_some).mem 1312000 = 5 := by
  decide +kernel
example : ((after three three_some).live cfg0).Pairwise Block.Apart :=
  (live_blocks_disjoint ok0 (after_reach three three_some).1).1

/-- `returned_fresh`, `live_exact`: the step that ends the allocation from class 2. -/
def last : Move := .cpu (.act 1 (CpuCache.Story.ch 0 2 1 4)) 0 true
theorem last_pre : Pre cfg0 (after early early_some) (last.ev (after early early_some)) := after_pre early early_some (by decide +kernel)
example : ((step cfg0 (after early early_some) (last.ev (after early early_some))).any fun (h', o) =>
      decide (returned cfg0 (last.ev (after early early_some)) o = [⟨2794240, 8960⟩] ∧
        h'.live cfg0 = [⟨2794240, 8960⟩, ⟨668800, 4480⟩, ⟨2621440, 163840⟩])) = true ∧
    (after early early_some).live cfg0 = [⟨668800, 4480⟩, ⟨2621440, 163840⟩] := by
  decide +kernel

/-- `contents_kept`, `live_never_released`: the free pages of the hugepage in which class 2 has its span go to the kernel,
which changes them; the object of class 2, in the page after them, is live. -/
def sub : Move :=
  .page 1 (.releaseRest 100 16 ⟨true, 0, true, false, 0, none, fun _ => false, fun _ _ => true, fun _ _ => true⟩) (.big 1) (some 1376300)
theorem sub_pre : Pre cfg0 (after freed freed_some) (sub.ev (after freed freed_some)) := after_pre freed freed_some (by decide +kernel)
example : ((step cfg0 (after freed freed_some) (sub.ev (after freed freed_some))).any fun (h', o) =>
      (match o with | .page 1 r => decide (r.calls = [⟨336, 4, true⟩, ⟨343, 1, true⟩]) | _ => false) &&
      decide (h'.live cfg0 = [⟨2794240, 8960⟩, ⟨668800, 4480⟩] ∧ h'.mem 1376300 ≠ (after freed freed_some).mem 1376300 ∧
        h'.mem 1397200 = 7)) = true := by
  decide +kernel

/-- The kernel takes away what waits to be released, and a live block is untouched. -/
theorem busy_some : (runAll cfg0 start (three ++ big2.take 2)).isSome = true := by decide +kernel
example : Pre cfg0 (after _ busy_some) ((Move.kernel 1312000).ev (after _ busy_some)) ∧
    ((Move.kernel 1312000).ev (after _ busy_some)) ≠ .kernel (after _ busy_some).mem := by
  refine ⟨after_pre _ busy_some (by decide +kernel), fun h => ?_⟩
  have h1 : set (after _ busy_some).mem 1312000 0 1312000 = (after _ busy_some).mem 1312000 := by
    injection h with h; exact congrFun h 1312000
  revert h1; decide +kernel

/-- `objects_accounted`, `pages_accounted`: one object with the user, two in a per-CPU cache, one in a transfer cache,
five free. -/
example : ((after three three_some).tier 1).x.sp.length * 9 = 9 ∧ ofK 1 (after three three_some).cpu.user = 1 ∧
    (after three three_some).cpuObjs cfg0 1 = 2 ∧ ((after three three_some).tier 1).cached.length = 1 ∧
    (after three three_some).freeObjs cfg0 1 = 5 ∧
    (after three three_some).pages (fun o => decide (o.tag cfg0 = 1)) = 23 ∧
    (((after three three_some).page 1).stats 4 8).map (fun st => (st.system, st.free, st.unmapped)) = some (64, 1, 40) := by
  decide +kernel

theorem used0 {k : Nat} (h : cfg0.cpu.Used k) : k = 1 ∨ k = 2 := by
  have := h.1.1; have : k < 3 := h.1.2; omega

/-- `no_leak`: everything has been freed and drained. -/
theorem whole_drained : Drained cfg0 (after whole whole_some) where
  user := by decide +kernel
  cpu := fun k hk => by rcases used0 hk with rfl | rfl <;> decide +kernel
  tier := fun k hk => by
    rcases used0 hk with rfl | rfl
    · exact ⟨by decide +kernel, by decide +kernel, List.length_eq_zero_iff.1 (by decide +kernel)⟩
    · exact ⟨by decide +kernel, by decide +kernel, List.length_eq_zero_iff.1 (by decide +kernel)⟩
  calls := fun k r => by
    have : (after whole whole_some).led = [] := by decide +kernel
    rw [this]; exact ⟨List.not_mem_nil, List.not_mem_nil⟩
example : (((after whole whole_some).page 0).stats 4 8).map (fun st => (st.system, st.free, st.unmapped)) = some (64, 8, 56) ∧
    (((after whole whole_some).page 1).stats 4 8).map (fun st => (st.system, st.free, st.unmapped)) = some (64, 0, 64) := by
  decide +kernel

end Story
end Verif.Heap
