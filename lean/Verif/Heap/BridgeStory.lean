import Verif.Heap.Bridge
import Verif.Heap.Story
/-! The hypotheses about joint histories are met: entry points with a shipped size-class table on the composed heap. -/
namespace Verif.Heap.Story
open Verif.Span (Geo Mem IsObj InObj)
open Verif.PageHeap (HP Run)
open Verif.HugeAddressMap (Rng Cov)

/-- 8 KiB pages, one partition. -/
def scfg : SizeMap.Cfg := ⟨13, 86, true, 262144, 1, 1, 192, false, false⟩
def table : List SizeMap.Info := SizeMap.reuse_a16_p13

def sizes : List Nat := SizeMap.setRegister scfg (table.map (·.size))
def pagesOf : List Nat := SizeMap.setRegister scfg (table.map fun e => SizeMap.bytesToLengthFloor scfg e.bytes)
def moves : List Nat := SizeMap.setRegister scfg (table.map (·.numToMove))

/-- One CPU caching the classes up to 4096 bytes; hugepages of 2 MiB. -/
def cfg1 : Cfg where
  cpu := { slab := ⟨1, 29, false⟩, size := fun k => sizes.getD k 0, batch := fun k => moves.getD k 0, bypass := fun _ => false }
  geo := fun k => ⟨13, 12, false, 0, pagesOf.getD k 0, sizes.getD k 0, pagesOf.getD k 0 * 8192 / sizes.getD k 0⟩
  tag := fun _ => 4
  H := 4
  N := 256
  mode := false
  ps := 13

def geoB (g : Geo) : Bool :=
  decide (12 ≤ g.pageShift ∧ g.pageShift ≤ 18 ∧ g.numPages ≤ 63 ∧ g.cacheSize ≤ 15 ∧ 0 < g.size ∧ g.size % 8 = 0 ∧ 0 < g.count ∧
    g.count * g.size ≤ g.numPages * g.pageSize ∧ (Span.useBitmap g = false → g.numPages = 1) ∧
    (Span.useBitmap g = true → g.count ≤ g.bitmapSize))

theorem geoB_ok {g : Geo} (h : geoB g = true) : g.OK := by
  unfold geoB at h
  rw [decide_eq_true_eq] at h
  obtain ⟨h1, h2, h3, h4, h5, h6, h7, h8, h9, h10⟩ := h
  exact ⟨h1, h2, h3, h4, h5, h6, h7, h8, h9, h10⟩

theorem geos : ((List.range 29).all fun k => decide (k = 0) || geoB (cfg1.geo k)) = true := by decide +kernel

theorem ok1 : cfg1.OK 100000 where
  cpu := ⟨by decide, by decide⟩
  N2 := by decide
  H0 := by decide
  ps := by decide
  geo := fun k hk => by
    have h0 := hk.1.1
    have h1 : k < 29 := hk.1.2
    have := List.all_eq_true.1 geos k (List.mem_range.2 h1)
    rw [Bool.or_eq_true, decide_eq_true_eq] at this
    exact ⟨geoB_ok (this.resolve_left (by omega)), rfl⟩

def caps1 : Nat → Nat := fun k => if k = 28 then 4 else 1
theorem fits1 : Slab.Fits cfg1.cpu.slab.nc caps1 200 := Slab.fitsB_ok (by decide +kernel)
theorem init1_some : (CpuCache.W.init cfg1.cpu mem0 0 caps1 200 1 100000).isSome = true := by decide +kernel
def reg1 : Nat → HugeRegion.R := fun _ => HugeRegion.R.new 4 256 0

def start1 : Heap :=
  { cpu := (CpuCache.W.init cfg1.cpu mem0 0 caps1 200 1 100000).get init1_some
    tier := fun _ => ⟨⟨CentralFreeList.init (fun a => a % 7), [], []⟩, tcs, [], [], []⟩
    wait := fun _ => []
    page := fun _ => HP.init 256 false reg1
    ob := fun _ => [], runs := fun _ => [], led := [], mem := fun a => a % 7 }

theorem start1_reach : Reach cfg1 100000 start1 :=
  Reach.init (m := mem0) (b := 0) (threads := 1) (fun _ => tcs) (fun _ => false) (fun _ => reg1) (fun a => a % 7) fits1
    (Option.some_get init1_some).symm (by
      intro _ c hc
      simp only [tcs, List.mem_cons, List.not_mem_nil, or_false] at hc
      rcases hc with rfl | rfl
      · exact ⟨4, 8, _, rfl, by decide⟩
      · exact ⟨2, 2, _, rfl, by decide⟩)

def small1 : List Move :=
  [.cpu (.schedIn 0 0) 0 true, .cpu (.malloc 0 28) 0 true] ++ acts 0 31 0 28 1 8 ++
  [.ask 0 0 true true, .page 4 (.new 1 2 false false false none (some ⟨8388608, 8⟩) 0 0) (.fresh 28) none,
   .page 4 (.refillDone 0) (.fresh 28) none, .answer 28 0 (some ⟨2147483648, 1, 2, false⟩)] ++ acts 0 12 0 28 1 4 ++
  [.page 4 (.new 37 1 false false false none none 0 0) (.big 4) none]

/-! ### The environment of the entry points -/

theorem scfg_shipped : scfg.Shipped := ⟨by decide, by decide, by decide⟩

theorem maps1_some : ∃ m, SizeMap.init scfg table 0 = .ok m := by
  have h := SizeMap.shipped_tables_valid scfg scfg_shipped table (by decide +kernel)
  exact (SizeMap.init_succeeds_iff scfg scfg_shipped _ h.2 0).2 h.1

noncomputable def env1 : Frontend.Env := ⟨scfg, maps1_some.choose, 1, 4096⟩

theorem env1_ok : env1.OK table where
  cfg := scfg_shipped
  maps := ⟨0, maps1_some.choose_spec⟩
  sec := fun h => absurd h (by decide)
  numa := fun h => absurd h (by decide)
  one := fun _ _ => rfl
  osPage := ⟨12, by decide, by decide, rfl⟩

theorem env1_sizes : env1.maps.classToSize = sizes := (SizeMap.init_inv scfg_shipped.ok maps1_some.choose_spec).2.2.sz

theorem sizes_len : sizes.length = 172 := by decide +kernel

theorem conf1 : Conf env1 cfg1 where
  ps := rfl
  size := fun k hk => by
    have hk2 : k < 29 := hk.1.2
    rw [env1_sizes]
    show sizes[k]? = some (sizes.getD k 0)
    have : k < sizes.length := by rw [sizes_len]; omega
    rw [List.getD_eq_getElem?_getD, List.getElem?_eq_getElem this]
    rfl
  tag := fun k hk => by
    have hk2 : k < 29 := hk.1.2
    refine ⟨.normalP0, ?_, rfl⟩
    show MemoryTag.tagFromSizeClass scfg 1 k = _
    unfold MemoryTag.tagFromSizeClass
    have : decide (k ≥ scfg.expandedStart) = false := by
      rw [decide_eq_false_iff_not]
      show ¬ k ≥ 86
      omega
    rw [this, Bool.and_false, if_neg (by decide), if_pos rfl]

/-! ### The lower level of the story -/

def sysTagB : Move → Bool
  | .page t e _ _ => e.sys.all fun r => decide (r.s / 2 ^ 21 % 8 = t ∧ r.s / 2 ^ 21 = (r.s + r.n - 1) / 2 ^ 21 ∧ r.s + r.n ≤ 2 ^ 27)
  | _ => true

theorem sysTagB_ok {m : Move} (hm : sysTagB m = true) (h : Heap) : SysTag cfg1 (m.ev h) := by
  cases m with
  | page t e who zap =>
    have key : ∀ r ∈ e.sys, ∀ q, r.Has q → TagOK cfg1 t q := by
      intro r hr q hq a ha
      have h1 := List.all_eq_true.1 hm r hr
      rw [decide_eq_true_eq] at h1
      have ha' : a / 2 ^ 13 / 256 = q := ha
      have q1 := hq.1
      have q2 := hq.2
      rw [MemoryTag.getMemoryTag_eq]
      omega
    cases zap <;> exact key
  | cpu => trivial
  | ask => trivial
  | answer => trivial
  | tier => trivial
  | write => trivial
  | kernel => trivial

/-- While users have nothing, the heap may do what it likes. -/
theorem backs : ∀ (ms : List Move) (s : Joint) (h' : Heap) (os : List Out), JReach env1 cfg1 100000 s → Reach cfg1 100000 s.h →
    s.f.heap.live = [] → (∀ t, 8 ≤ t → s.h.ob t = []) → (ms.all sysTagB) = true → runAll cfg1 s.h ms = some (h', os) →
    JReach env1 cfg1 100000 { s with h := h' }
  | [], s, h', os, j, _, _, _, _, e => by
    simp only [runAll, Option.some.injEq, Prod.mk.injEq] at e; rw [← e.1]; exact j
  | m :: ms, s, h', os, j, r, hl, ho, hb, e => by
    unfold runAll at e
    rw [List.all_cons, Bool.and_eq_true] at hb
    split at e
    · rename_i hp
      obtain ⟨⟨x', o⟩, h1, h2⟩ := Option.bind_eq_some_iff.1 e
      obtain ⟨⟨z, os'⟩, h3, h4⟩ := Option.map_eq_some_iff.1 h2
      simp only [Prod.mk.injEq] at h4
      rw [← h4.1]
      have hpre := preB_ok (r.inv ok1) ok1 ho hp
      exact backs ms { s with h := x' } z os'
        (j.step (.back _ x' o hpre (sysTagB_ok hb.1 _) h1 (by rw [hl]; intro b hb; cases hb) (by rw [hl]; intro _ _ b hb; cases hb)))
        (r.step _ hpre h1) hl (step_ob ho hp h1) hb.2 h3
    · cases e

set_option maxRecDepth 20000
theorem small1_some : (runAll cfg1 start1 small1).isSome = true := by decide +kernel
def heap1 : Heap := ((runAll cfg1 start1 small1).get small1_some).1

theorem heap1_facts : (28, 17592186048512) ∈ heap1.cpu.user ∧ (Owner.lent 28, (⟨2147483648, 1, 2, false⟩ : Run)) ∈ heap1.led ∧
    (Owner.big 4, (⟨2147483649, 37, 1, false⟩ : Run)) ∈ heap1.led := by decide +kernel

/-! ### The whole story -/

def j0 : Joint := ⟨⟨⟨fun _ => 0, [], 0⟩, fun _ => (Frontend.mallocPol scfg 0, 0)⟩, start1, fun _ => ⟨0, 0⟩⟩

theorem j1_reach : JReach env1 cfg1 100000 { j0 with h := heap1 } :=
  backs small1 j0 heap1 _ (.init j0 rfl start1_reach fun _ => rfl) start1_reach rfl (fun _ _ => rfl) (by decide +kernel)
    (Option.some_get small1_some).symm

theorem pol_valid : (Frontend.mallocPol scfg 0).Valid env1 :=
  Frontend.mallocPol_valid env1_ok (by decide) (fun _ => rfl) .malloc ⟨4, rfl⟩

theorem sm_valid : (Frontend.mallocPol scfg 0).sm.Valid scfg := ⟨⟨4, rfl⟩, by decide, by decide⟩

/-- 4000 bytes are served by class 28, of 4096 bytes. -/
theorem class28 : SizeMap.getSizeClass env1.cfg env1.maps (Frontend.mallocPol scfg 0).sm 4000 = some (.small 28) := by
  obtain ⟨c, e, h1, h2, h3, -, -, h5, h6, -⟩ := SizeMap.class_is_tightest scfg scfg_shipped table 0 _ maps1_some.choose_spec _ sm_valid 4000
    (by decide) (by decide)
  have hsz : e.size = 4096 := by
    have : ∀ e ∈ table.tail, 4000 ≤ e.size → 16 ∣ e.size → 4096 ≤ e.size := by decide +kernel
    have a1 := this e h2.1 h2.2.1 h2.2.2.1
    have a2 := h2.2.2.2 ⟨4096, 8192, 16⟩ (by decide +kernel) (by decide) (by decide)
    have a2' : e.size ≤ 4096 := a2
    omega
  have hg : SizeMap.groupStart scfg (Frontend.mallocPol scfg 0).sm 4000 = 0 := by decide +kernel
  rw [hg] at h5 h6
  have h3' : sizes[c]? = some e.size := by rw [← env1_sizes]; exact h3
  have hc : c = 28 := by
    have hall : ∀ c, c < 86 → sizes[c]? = some 4096 → c = 28 := by decide +kernel
    exact hall c (by have : c < 0 + 86 := h6; omega) (by rw [h3', hsz])
  rw [hc] at h1
  exact h1

theorem class_large : SizeMap.getSizeClass env1.cfg env1.maps (Frontend.mallocPol scfg 0).sm 300000 = some .large :=
  (SizeMap.large_iff scfg scfg_shipped table 0 _ maps1_some.choose_spec _ sm_valid 300000).2 (Or.inl (by decide))

theorem placed_small : Placed env1 cfg1 heap1 (Frontend.mallocPol scfg 0) 4000 ⟨17592186048512, 4096⟩
    ⟨.cached 17592186048512 (2147483648 * 2 ^ 13) 8192, .null, byte heap1.mem⟩ :=
  .cached 28 17592186048512 ⟨2147483648, 1, 2, false⟩ 8192 .null class28 heap1_facts.1 heap1_facts.2.1 ⟨1, by decide +kernel, by decide +kernel⟩

theorem placed_large : Placed env1 cfg1 heap1 (Frontend.mallocPol scfg 0) 300000 ⟨17592186052608, 303104⟩
    ⟨.null, .pages (2147483649 * 2 ^ 13) false, byte heap1.mem⟩ :=
  .pages .normalP0 ⟨2147483649, 37, 1, false⟩ false .null class_large rfl heap1_facts.2.2 (by decide +kernel) (by decide +kernel)

/-- The blocks as `malloc(4000)` and `malloc(300000)` return them. -/
def u1 : Frontend.Block := ⟨17592186048512, 28, 2147483648 * 2 ^ 13, 8192, none⟩
def u2 : Frontend.Block := ⟨17592186052608, 0, 17592186052608, 303104, none⟩

def f1 : Frontend.Heap := ⟨byte heap1.mem, [u1], 0⟩
def f2 : Frontend.Heap := ⟨byte heap1.mem, [u2, u1], 0⟩

theorem fast1 : Frontend.fastAlloc env1 (Frontend.mallocPol scfg 0) j0.f.heap 4000
    ⟨.cached 17592186048512 (2147483648 * 2 ^ 13) 8192, .null, byte heap1.mem⟩ = .ok (f1, some (u1, 4096)) := by
  have hsz := conf1.size 28 ⟨⟨by decide, by decide⟩, by decide +kernel⟩
  unfold Frontend.fastAlloc
  simp only [class28, hsz]
  rfl

theorem fast2 : Frontend.fastAlloc env1 (Frontend.mallocPol scfg 0) f1 300000
    ⟨.null, .pages (2147483649 * 2 ^ 13) false, byte heap1.mem⟩ = .ok (f2, some (u2, 303104)) := by
  unfold Frontend.fastAlloc
  simp only [class_large]
  rw [if_neg (by decide)]
  rfl

def j2 : Joint := ⟨⟨f1, Frontend.setReq j0.f.req u1 (Frontend.mallocPol scfg 0, 4000)⟩, heap1, fun x => if x = u1 then ⟨17592186048512, 4096⟩ else ⟨0, 0⟩⟩
def j3 : Joint := ⟨⟨f2, Frontend.setReq j2.f.req u2 (Frontend.mallocPol scfg 0, 300000)⟩, heap1,
  fun x => if x = u2 then ⟨17592186052608, 303104⟩ else j2.bk x⟩

theorem j2_reach : JReach env1 cfg1 100000 j2 :=
  j1_reach.step (.alloc _ 4000 _ _ f1 u1 4096 pol_valid (by decide) placed_small (fun b hb => absurd hb List.not_mem_nil) fast1)

theorem j3_reach : JReach env1 cfg1 100000 j3 :=
  j2_reach.step (.alloc _ 300000 _ _ f2 u2 303104 pol_valid (by decide) placed_large
    (fun b hb => by
      rw [List.mem_singleton.1 (show b ∈ [u1] from hb)]
      decide) fast2)

/-- A user writes the byte 300 bytes into the small block. -/
theorem u1_has : u1.Has env1 17592186048812 := by
  refine ⟨4096, ?_, by decide, by decide⟩
  have hsz := conf1.size 28 ⟨⟨by decide, by decide⟩, by decide +kernel⟩
  unfold Frontend.getSize
  rw [if_pos (by decide)]
  exact hsz

def j4 : Joint := { j3 with
  f := ⟨{ f2 with mem := fun x => if x = 17592186048812 then 77 else f2.mem x }, j3.f.req⟩
  h := heap1.setMem (setByte heap1.mem 17592186048812 77) }

theorem j3_write : JStep env1 cfg1 j3 (some 17592186048812) j4 :=
  .write u1 17592186048812 77 (by decide) u1_has

theorem j4_reach : JReach env1 cfg1 100000 j4 := j3_reach.step j3_write

/-! ### The hypotheses are met -/

/-- `user_blocks_disjoint`: two blocks are live in a reachable state. -/
example : u1.addr ≠ u2.addr ∧ ∀ a, ¬ (u1.Has env1 a ∧ u2.Has env1 a) :=
  user_blocks_disjoint conf1 ok1 env1_ok j4_reach (by decide) (by decide) (by decide)

/-- `user_block_size`: 300000 bytes were asked for. -/
example : ∃ u, Frontend.getSize env1 u2 = some u ∧ 300000 ≤ u ∧ ∃ B ∈ j4.h.live cfg1, B.addr = u2.addr ∧ u ≤ B.size :=
  user_block_size conf1 ok1 env1_ok j4_reach (b := u2) (by decide)

/-- `user_bytes_kept`: a write leaves the other bytes as they are, and the next step of any kind leaves it. -/
example : byte j4.h.mem 17592186048813 = byte j3.h.mem 17592186048813 :=
  user_bytes_kept conf1 ok1 env1_ok j3_reach j3_write (b := u1) (by decide)
    (by obtain ⟨n, h1, h2, h3⟩ := u1_has
        have h4 := conf1.size 28 ⟨⟨by decide, by decide⟩, by decide +kernel⟩
        have h5 : Frontend.getSize env1 u1 = some 4096 := by
          unfold Frontend.getSize; rw [if_pos (by decide)]; exact h4
        exact ⟨4096, h5, by decide, by decide⟩) (by decide)

example : byte j4.h.mem 17592186048812 = 77 := byte_set _ _ _

example {s : Joint} (h : JStep env1 cfg1 j4 none s) : byte s.h.mem 17592186048812 = 77 :=
  (user_bytes_kept conf1 ok1 env1_ok j4_reach h (b := u1) (by decide) u1_has (fun h => (by cases h))).trans (byte_set _ _ _)

end Verif.Heap.Story
