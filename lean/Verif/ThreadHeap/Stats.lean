import Verif.ThreadHeap.Props
import Verif.CentralFreeList.Single
import Verif.GlobalStats.Model
import Verif.GlobalStats.Sums
/-!
C72, in per-thread mode: the statistics of the composed heap account for every byte, and at rest the bytes reported in use by
the application are exactly the bytes of the blocks users have.
-/
namespace Verif.ThreadHeap
open Verif.Span (Geo Mem)
open Verif.PageHeap (HP Run)
open Verif.HugeAddressMap (lenSum)
open Verif.GlobalStats (Class Backing Reading Stats extract inUseByApp centralBytes transferBytes shardedBytes statSub classCount
  sum_add sum_mul sum_congr sum_zero sum_groups sum_split sum_const)

variable {cfg : Cfg} {h : Heap}

/-- The number of objects in the main transfer cache, and in the other ones, of a class. -/
def mainLen (y : TransferCache.World) : Nat := match y.t with | [] => 0 | t :: _ => t.used
def otherLen (y : TransferCache.World) : Nat := match y.t with | [] => 0 | _ :: l => (l.map TransferCache.TC.used).sum

/-- What the caches of class `k` answer, global_stats.cc:98-104. -/
def Heap.classRead (cfg : Cfg) (h : Heap) (k : Nat) : Class :=
  ⟨(cfg.geo k).size, CentralFreeList.length (h.tier k).x.c, CentralFreeList.overheadBytes (cfg.geo k) (h.tier k).x.c,
    mainLen (h.tier k), otherLen (h.tier k), 0⟩

/-- What the page heap of tag `t` answers, in bytes (`pages_accounted`: it always answers). -/
def Heap.backing (cfg : Cfg) (h : Heap) (t : Nat) : Backing :=
  match (h.page t).stats cfg.H cfg.N with
  | some st => ⟨st.system * 2 ^ cfg.ps, st.free * 2 ^ cfg.ps, st.unmapped * 2 ^ cfg.ps⟩
  | none => ⟨0, 0, 0⟩

/-- What `ExtractStats` reads in this state, if there are the page heaps of the tags below `nt`; `rest` is what does not depend on the heap modelled
here (metadata, arena, peaks, limits). -/
def Heap.reading (cfg : Cfg) (h : Heap) (nt : Nat) (rest : Reading) : Reading :=
  { rest with
    classes := (List.range cfg.tc.nc).map (h.classRead cfg)
    threadBytes := h.tc.stats.1
    threadCount := h.tc.heaps.length
    perCpu := false
    heaps := (List.range nt).map (h.backing cfg) }

/-- The size classes: the caches know the sizes of the spans' objects; classes not in use have size 0 (`Verif/SizeMap`); spans are cut
into as many objects as fit (central_freelist.h:429-431); if that is one object, it takes the whole span (true of all shipped
tables: `GlobalStats.Tables`). -/
structure Cfg.Sizes (cfg : Cfg) : Prop where
  size : ∀ k, k < cfg.tc.nc → cfg.tc.size k = (cfg.geo k).size
  unused : ∀ k, k < cfg.tc.nc → ¬ cfg.tc.Used k → (cfg.geo k).size = 0
  cut : ∀ k, cfg.tc.Used k → (cfg.geo k).count = (cfg.geo k).numPages * (cfg.geo k).pageSize / (cfg.geo k).size
  one : ∀ k, cfg.tc.Used k → (cfg.geo k).count = 1 → (cfg.geo k).numPages * (cfg.geo k).pageSize % (cfg.geo k).size = 0

/-- The bytes of the blocks users have. -/
def Heap.liveBytes (cfg : Cfg) (h : Heap) : Nat := ((h.live cfg).map Block.size).sum

def Owner.busy : Owner → Bool
  | .fresh _ | .dying _ => true
  | _ => false

/-- Bytes in the hands of calls in progress: batches on their way to the central free lists, spans on their way from or to a page heap, pages in calls
of a page heap that wait for the kernel. -/
def Heap.between (cfg : Cfg) (h : Heap) (nt : Nat) : Nat :=
  ((List.range cfg.tc.nc).map fun k => (cfg.geo k).size * (h.tier k).flying.length).sum + h.pages Owner.busy * 2 ^ cfg.ps +
    ((List.range nt).map fun t => (h.page t).pending * cfg.N * 2 ^ cfg.ps).sum

/-- Bytes of objects that a thread cache has passed on and not yet subtracted from its size. -/
def Heap.twice (cfg : Cfg) (h : Heap) : Nat := (h.tc.heaps.map fun t => t.leaving cfg.tc).sum

/-- Only the main transfer caches hold objects, as the code has it in per-thread mode (thread_cache.cc uses `transfer_cache()` alone). -/
def Heap.mainOnly (cfg : Cfg) (h : Heap) : Prop := ∀ k, k < cfg.tc.nc → otherLen (h.tier k) = 0

theorem cached_length (y : TransferCache.World) : y.cached.length = mainLen y + otherLen y := by
  have hl : ∀ l : List TransferCache.TC, (l.flatMap TransferCache.TC.objs).length = (l.map TransferCache.TC.used).sum := by
    intro l
    induction l with
    | nil => rfl
    | cons t l ih => simp [ih, TransferCache.TC.objs]
  unfold TransferCache.World.cached mainLen otherLen
  rw [hl]
  cases y.t <;> simp

/-- One class: the bytes of its spans. -/
theorem class_bytes (hc : cfg.OK) (hz : cfg.Sizes) (r : Reach cfg h) {k : Nat} (hk : k < cfg.tc.nc) :
    (h.tier k).x.sp.length * (cfg.geo k).numPages * 2 ^ cfg.ps =
      (cfg.geo k).size * (ofK k h.tc.user + h.tcObjs cfg k + (h.tier k).flying.length) +
      ((cfg.geo k).size * (CentralFreeList.length (h.tier k).x.c).toNat + CentralFreeList.overheadBytes (cfg.geo k) (h.tier k).x.c) +
      (cfg.geo k).size * mainLen (h.tier k) + otherLen (h.tier k) * (cfg.geo k).size := by
  have I := r.inv hc
  by_cases hu : cfg.tc.Used k
  · obtain ⟨g, hs⟩ := hc.geo k hu
    obtain ⟨h1, -⟩ := TransferCache.conserved g hu.2.2.2 _ (I.tier k)
    obtain ⟨h2, -⟩ := objects_accounted hc r hu
    have h3 := CentralFreeList.free_exact g _ h1
    have h4 := CentralFreeList.overhead_exact g (hz.cut k hu) (hz.one k hu) _ h1
    have h5 := cached_length (h.tier k)
    have h6 : (CentralFreeList.length (h.tier k).x.c).toNat = h.freeObjs cfg k + (CentralFreeList.inHand (h.tier k).x.c).length := by
      rw [h3]; rfl
    have h7 : (cfg.geo k).pageSize = 2 ^ cfg.ps := by unfold Geo.pageSize; rw [hs]
    rw [h6, ← h7, Nat.mul_assoc, h4, h2, h5]
    grind
  · have h1 : (h.tier k).x.sp = [] := by
      rw [List.eq_nil_iff_forall_not_mem]
      intro p hp
      obtain ⟨_, _, _, h2, _⟩ := I.span hp
      exact hu h2
    have h2 := hz.unused k hk hu
    rw [h1, h2]
    unfold CentralFreeList.overheadBytes
    rw [h2]
    simp

theorem pages_split (hc : cfg.OK) (r : Reach cfg h) :
    h.pages (fun _ => true) = (h.bigs.map Run.n).sum + h.pages Owner.busy +
      ((List.range cfg.tc.nc).map fun k => (h.tier k).x.sp.length * (cfg.geo k).numPages).sum := by
  have I := r.inv hc
  let cls : Owner × Run → Nat := fun x => match x.1 with | .lent k => k | _ => 0
  let isLent : Owner × Run → Bool := fun x => match x.1 with | .lent _ => true | _ => false
  have h1 : h.pages (fun _ => true) = ((h.led.filter isLent).map fun x => x.2.n).sum + ((h.led.filter fun x => !isLent x).map fun x => x.2.n).sum := by
    unfold Heap.pages
    rw [List.filter_eq_self.2 (by simp)]
    exact sum_split isLent (fun x => x.2.n) h.led
  have h2 : ((h.led.filter fun x => !isLent x).map fun x => x.2.n).sum = (h.bigs.map Run.n).sum + h.pages Owner.busy := by
    unfold Heap.bigs Heap.pages
    generalize h.led = l
    induction l with
    | nil => rfl
    | cons x l ih =>
      obtain ⟨o, q⟩ := x
      cases o <;> simp [isLent, Owner.busy] at ih ⊢ <;> omega
  have h3 : ((h.led.filter isLent).map fun x => x.2.n).sum =
      ((List.range cfg.tc.nc).map fun k => (h.tier k).x.sp.length * (cfg.geo k).numPages).sum := by
    rw [sum_groups cls (fun x => x.2.n) cfg.tc.nc ?_]
    · apply sum_congr
      intro k _
      have h4 : (h.led.filter isLent).filter (fun x => decide (cls x = k)) = h.led.filter fun x => decide (x.1 = .lent k) := by
        rw [List.filter_filter]
        apply List.filter_congr
        rintro ⟨o, q⟩ _
        cases o <;> simp [isLent, cls]
      rw [h4, sum_const (c := (cfg.geo k).numPages)]
      · have h5 := (I.lent k).length_eq
        unfold ofClass at h5
        rw [List.length_map] at h5
        rw [h5]
      · rintro ⟨o, q⟩ hx
        obtain ⟨hx, ho⟩ := List.mem_filter.1 hx
        have ho : o = .lent k := by simpa using ho
        subst ho
        exact (I.size k q (Or.inr hx)).2
    · rintro ⟨o, q⟩ hx
      obtain ⟨hx, ho⟩ := List.mem_filter.1 hx
      cases o with
      | lent k => exact (I.size k q (Or.inr hx)).1.1
      | fresh k => exact absurd ho (by simp [isLent])
      | dying k => exact absurd ho (by simp [isLent])
      | big t => exact absurd ho (by simp [isLent])
  omega

theorem live_bytes (hc : cfg.OK) (r : Reach cfg h) :
    h.liveBytes cfg = ((List.range cfg.tc.nc).map fun k => (cfg.geo k).size * ofK k h.tc.user).sum + (h.bigs.map Run.n).sum * 2 ^ cfg.ps := by
  have I := r.inv hc
  unfold Heap.liveBytes Heap.live
  rw [List.map_append, List.sum_append_nat, List.map_map, List.map_map]
  have h1 : ((h.bigs.map (Block.size ∘ runBlock cfg)).sum) = (h.bigs.map Run.n).sum * 2 ^ cfg.ps := sum_mul Run.n _ _
  rw [h1]
  congr 1
  rw [sum_groups (fun x : Nat × Nat => x.1) (Block.size ∘ objBlock cfg) cfg.tc.nc fun x hx =>
    ((I.tc.inv hc.tc hc.kMin).user x hx).1]
  apply sum_congr
  intro k _
  rw [sum_const (c := (cfg.geo k).size)]
  · unfold ofK
    rw [List.countP_eq_length_filter, Nat.mul_comm]
  · intro x hx
    have := (List.mem_filter.1 hx).2
    have hk : x.1 = k := by simpa using this
    show (cfg.geo x.1).size = _
    rw [hk]

theorem thread_bytes (hc : cfg.OK) (hz : cfg.Sizes) (r : Reach cfg h) :
    h.tc.stats.1 = ((List.range cfg.tc.nc).map fun k => (cfg.geo k).size * h.tcObjs cfg k).sum + h.twice cfg := by
  have I := r.inv hc
  have h1 : h.tc.stats.1 = ((h.cached cfg).map fun p => cfg.tc.size p.1).sum + h.twice cfg := by
    have hs : ∀ t ∈ h.tc.heaps, t.size = ((t.objects cfg.tc).map fun p => cfg.tc.size p.1).sum + t.leaving cfg.tc := fun t ht =>
      (ThreadCache.size_exact cfg.tc hc.tc hc.kMin h.tc I.tc t ht).1
    show (h.tc.heaps.map (·.size)).sum = _
    rw [sum_congr hs, sum_add]
    unfold Heap.twice Heap.cached
    congr 1
    clear hs
    generalize h.tc.heaps = l
    induction l with
    | nil => rfl
    | cons t l ih => simp [ih]
  rw [h1]
  congr 1
  have hmem : ∀ x ∈ h.cached cfg, x.1 < cfg.tc.nc := by
    intro x hx
    obtain ⟨t, -, hx⟩ := List.mem_flatMap.1 hx
    obtain ⟨k, hk, hx⟩ := List.mem_flatMap.1 hx
    obtain ⟨o, -, rfl⟩ := List.mem_map.1 hx
    exact List.mem_range.1 hk
  rw [sum_groups (fun x : Nat × Nat => x.1) (fun p => cfg.tc.size p.1) cfg.tc.nc hmem]
  apply sum_congr
  intro k hk
  rw [sum_const (c := (cfg.geo k).size)]
  · unfold Heap.tcObjs ofK
    rw [List.countP_eq_length_filter, Nat.mul_comm]
  · intro x hx
    have := (List.mem_filter.1 hx).2
    have hk' : x.1 = k := by simpa using this
    show cfg.tc.size x.1 = _
    rw [hk', hz.size k (List.mem_range.1 hk)]

/-- **C72.** In every state, the bytes the system has given are accounted for by the statistics, the blocks users have and what is in the hands of calls
in progress. -/
theorem bytes_accounted (hc : cfg.OK) (hz : cfg.Sizes) (r : Reach cfg h) (nt : Nat) (ht : ∀ x ∈ h.led, x.1.tag cfg < nt)
    (rest : Reading) (s : Stats) (hs : extract (h.reading cfg nt rest) false = some s) :
    s.pageheap.system + h.twice cfg = s.thread + s.central + s.transfer + shardedBytes ((List.range cfg.tc.nc).map (h.classRead cfg)) +
      s.pageheap.free + s.pageheap.unmapped + h.liveBytes cfg + h.between cfg nt := by
  have e1 : s.thread = h.tc.stats.1 := by cases hs; rfl
  have e2 : s.central = ((List.range cfg.tc.nc).map fun k => (cfg.geo k).size * (CentralFreeList.length (h.tier k).x.c).toNat +
      CentralFreeList.overheadBytes (cfg.geo k) (h.tier k).x.c).sum := by
    cases hs; show centralBytes _ = _; unfold centralBytes; rw [show (h.reading cfg nt rest).classes = (List.range cfg.tc.nc).map (h.classRead cfg) from rfl, List.map_map]; rfl
  have e3 : s.transfer = ((List.range cfg.tc.nc).map fun k => (cfg.geo k).size * mainLen (h.tier k)).sum := by
    cases hs; show transferBytes _ = _; unfold transferBytes; rw [show (h.reading cfg nt rest).classes = (List.range cfg.tc.nc).map (h.classRead cfg) from rfl, List.map_map]; rfl
  have e4 : shardedBytes ((List.range cfg.tc.nc).map (h.classRead cfg)) =
      ((List.range cfg.tc.nc).map fun k => otherLen (h.tier k) * (cfg.geo k).size).sum := by
    unfold shardedBytes; rw [List.map_map]; rfl
  have e5 : s.pageheap = Backing.total ((List.range nt).map (h.backing cfg)) := by cases hs; rfl
  have hp : s.pageheap.system = s.pageheap.free + s.pageheap.unmapped + ((List.range nt).map fun t => (h.page t).pending * cfg.N * 2 ^ cfg.ps).sum +
      h.pages (fun _ => true) * 2 ^ cfg.ps := by
    have h2 : h.pages (fun _ => true) = ((List.range nt).map fun t => h.pages (fun o => decide (o.tag cfg = t))).sum := by
      unfold Heap.pages
      rw [List.filter_eq_self.2 (by simp)]
      exact sum_groups (fun x : Owner × Run => x.1.tag cfg) (fun x => x.2.n) nt ht
    rw [h2, ← sum_mul]
    rw [e5]
    unfold Backing.total
    simp only [List.map_map]
    rw [← sum_add, ← sum_add, ← sum_add]
    apply sum_congr
    intro t _
    obtain ⟨st, g1, -, g3⟩ := pages_accounted hc r t
    simp only [Function.comp, Heap.backing, g1]
    rw [g3]
    grind
  have h3 := pages_split hc r
  have h4 := live_bytes hc r
  have h5 := thread_bytes hc hz r
  have h6 : ((List.range cfg.tc.nc).map fun k => (h.tier k).x.sp.length * (cfg.geo k).numPages).sum * 2 ^ cfg.ps =
      ((List.range cfg.tc.nc).map fun k => (cfg.geo k).size * ofK k h.tc.user).sum +
      ((List.range cfg.tc.nc).map fun k => (cfg.geo k).size * h.tcObjs cfg k).sum +
      ((List.range cfg.tc.nc).map fun k => (cfg.geo k).size * (h.tier k).flying.length).sum + s.central + s.transfer +
      shardedBytes ((List.range cfg.tc.nc).map (h.classRead cfg)) := by
    rw [e2, e3, e4, ← sum_mul, ← sum_add, ← sum_add, ← sum_add, ← sum_add, ← sum_add]
    apply sum_congr
    intro k hk
    rw [class_bytes hc hz r (List.mem_range.1 hk), Nat.mul_add, Nat.mul_add]
  rw [h3, Nat.add_mul, Nat.add_mul] at hp
  unfold Heap.between
  omega

/-- No call is in progress: no thread is inside its cache giving objects back, no batch is under way, no call of the central free lists or the page heaps
waits. -/
structure Rest (cfg : Cfg) (nt : Nat) (h : Heap) : Prop where
  tc : ∀ t ∈ h.tc.heaps, t.st.releasing = false
  tier : ∀ k, cfg.tc.Used k → (h.tier k).flying = []
  calls : ∀ k r, (Owner.fresh k, r) ∉ h.led ∧ (Owner.dying k, r) ∉ h.led
  page : ∀ t, t < nt → (h.page t).quiet

theorem Rest.nothing {nt : Nat} (hz : cfg.Sizes) (q : Rest cfg nt h) : h.twice cfg = 0 ∧ h.between cfg nt = 0 := by
  constructor
  · unfold Heap.twice
    apply sum_zero
    intro t ht
    have := q.tc t ht
    unfold ThreadCache.Heap.leaving
    cases hst : t.st <;> simp_all [ThreadCache.St.releasing]
  · unfold Heap.between
    have h1 : ((List.range cfg.tc.nc).map fun k => (cfg.geo k).size * (h.tier k).flying.length).sum = 0 := by
      apply sum_zero
      intro k hk
      by_cases hu : cfg.tc.Used k
      · rw [q.tier k hu]; simp
      · rw [hz.unused k (List.mem_range.1 hk) hu]; simp
    have h2 : h.pages Owner.busy = 0 := by
      unfold Heap.pages
      have : h.led.filter (fun x => x.1.busy) = [] := by
        rw [List.filter_eq_nil_iff]
        rintro ⟨o, x⟩ hx
        cases o with
        | fresh k => exact absurd hx (q.calls k x).1
        | dying k => exact absurd hx (q.calls k x).2
        | lent k => simp [Owner.busy]
        | big t => simp [Owner.busy]
      rw [this]; rfl
    have h3 : ((List.range nt).map fun t => (h.page t).pending * cfg.N * 2 ^ cfg.ps).sum = 0 := by
      apply sum_zero
      intro t ht
      obtain ⟨q1, q2, q3, q4⟩ := q.page t (List.mem_range.1 ht)
      have : (h.page t).pending = 0 := by
        unfold HP.pending HugeCache.S.busy
        rw [q1, q2, q3, q4]; rfl
      rw [this]; simp
    rw [h1, h2, h3]; simp

/-- **C72.** At rest, the bytes reported in use by the application (`generic.current_allocated_bytes`, `generic.bytes_in_use_by_app`, `mallinfo2().uordblks`) are
exactly the bytes of the blocks users have, whatever has happened before. -/
theorem in_use_exact (hc : cfg.OK) (hz : cfg.Sizes) (r : Reach cfg h) {nt : Nat} (q : Rest cfg nt h) (hm : h.mainOnly cfg)
    (ht : ∀ x ∈ h.led, x.1.tag cfg < nt) (rest : Reading) (s : Stats) (hs : extract (h.reading cfg nt rest) false = some s) :
    inUseByApp s = h.liveBytes cfg := by
  have h1 := bytes_accounted hc hz r nt ht rest s hs
  obtain ⟨h2, h3⟩ := q.nothing hz
  have h4 : shardedBytes ((List.range cfg.tc.nc).map (h.classRead cfg)) = 0 := by
    unfold shardedBytes
    rw [List.map_map]
    apply sum_zero
    intro k hk
    have := hm k (List.mem_range.1 hk)
    show otherLen (h.tier k) * _ = 0
    rw [this, Nat.zero_mul]
  have e6 : s.sharded = 0 ∧ s.perCpu = 0 := by cases hs; exact ⟨rfl, rfl⟩
  unfold inUseByApp statSub
  rw [e6.1, e6.2, if_pos (by omega)]
  omega

/-- **C72.** Never too little: in every state (calls in progress or not), unless a thread is giving objects back, the bytes reported in use are at least the
bytes of the blocks users have. -/
theorem in_use_covers (hc : cfg.OK) (hz : cfg.Sizes) (r : Reach cfg h) (q : ∀ t ∈ h.tc.heaps, t.st.releasing = false) (nt : Nat)
    (ht : ∀ x ∈ h.led, x.1.tag cfg < nt) (rest : Reading) (s : Stats) (hs : extract (h.reading cfg nt rest) false = some s) :
    h.liveBytes cfg ≤ inUseByApp s := by
  have h1 := bytes_accounted hc hz r nt ht rest s hs
  have h2 : h.twice cfg = 0 := by
    unfold Heap.twice
    apply sum_zero
    intro t ht
    have := q t ht
    unfold ThreadCache.Heap.leaving
    cases hst : t.st <;> simp_all [ThreadCache.St.releasing]
  have e6 : s.sharded = 0 ∧ s.perCpu = 0 := by cases hs; exact ⟨rfl, rfl⟩
  unfold inUseByApp statSub
  rw [e6.1, e6.2, if_pos (by omega)]
  omega

/-- **C72.** At rest, the number of free objects reported for a size class is exact: with the objects users have it makes up all objects of the class's spans. -/
theorem class_count_exact (hc : cfg.OK) (r : Reach cfg h) {nt : Nat} (q : Rest cfg nt h) {k : Nat} (hk : cfg.tc.Used k) (rest : Reading) :
    (h.tier k).x.sp.length * (cfg.geo k).count =
      ofK k h.tc.user + classCount (h.reading cfg nt rest) (h.classRead cfg k) (h.tc.stats.2 k) := by
  have I := r.inv hc
  obtain ⟨g, -⟩ := hc.geo k hk
  obtain ⟨h1, -⟩ := TransferCache.conserved g hk.2.2.2 _ (I.tier k)
  obtain ⟨h2, -⟩ := objects_accounted hc r hk
  have h3 := CentralFreeList.free_exact g _ h1
  have h5 := cached_length (h.tier k)
  have h6 : (CentralFreeList.length (h.tier k).x.c).toNat = h.freeObjs cfg k + (CentralFreeList.inHand (h.tier k).x.c).length := by
    rw [h3]; rfl
  have h7 := (ThreadCache.stats_exact cfg.tc hc.tc hc.kMin h.tc I.tc q.tc).2 k hk.1
  have h8 : ((h.tc.cached cfg.tc).filter fun p => p.1 = k).length = h.tcObjs cfg k := by
    unfold Heap.tcObjs ofK
    rw [List.countP_eq_length_filter]
    rfl
  have h9 : (h.tier k).flying.length = 0 := by rw [q.tier k hk]; rfl
  have h10 : classCount (h.reading cfg nt rest) (h.classRead cfg k) (h.tc.stats.2 k) =
    (CentralFreeList.length (h.tier k).x.c).toNat + mainLen (h.tier k) + otherLen (h.tier k) + 0 + h.tc.stats.2 k := rfl
  omega

end Verif.ThreadHeap
