import Verif.PageHeap.Props
import Verif.PageAllocator.Calls
/-!
The release calls of one page heap, run to their end with nothing else happening: the cache drops the lock while it talks
to the kernel (huge_cache.cc:256-293), and its waits are answered at once.  What these calls report, what they return to
the kernel and what is left afterwards.
-/
namespace Verif.PageHeap
open Verif.HugeAddressMap
open Verif.HugeRegion (hlFromPages PStats)

/-- The waits of a call of the cache, answered in order by `ans`; the waiting call is the last one of `inflight`. -/
def HP.drain (H N : Nat) (mode : Bool) : List Bool → HP → Out → Option (HP × Out)
  | b :: bs, s, .waiting =>
    match s.step H N mode (.cacheAnswer (s.cache.inflight.length - 1) b) with
    | none => none
    | some (s', r) => HP.drain H N mode bs s' r.out
  | _, s, o => some (s, o)

/-- The choices of the environment in one release: `MinOverTime` in the cache, the kernel's answers to the cache, and
those of `RelArgs`. -/
structure Choice where
  ms : Nat
  ans : List Bool
  x : RelArgs

/-- `cache_.ReleaseCachedPages(HLFromPages(num))` run to its end: the pages it reports. -/
def HP.cacheRelease (H N : Nat) (mode : Bool) (s : HP) (num : Nat) (c : Choice) : Option (HP × Nat) :=
  match s.step H N mode (.releaseCached num c.ms) with
  | none => none
  | some (s1, r) =>
    match HP.drain H N mode c.ans s1 r.out with
    | some (s2, .released v) => some (s2, v)
    | _ => none

/-- `HugePageAwareAllocator::ReleaseAtLeastNPages`, huge_page_aware_allocator.h:1044-1083. -/
def HP.releaseAtLeast (H N : Nat) (mode : Bool) (s : HP) (num : Nat) (c : Choice) : Option (HP × Nat) :=
  match s.cacheRelease H N mode num c with
  | none => none
  | some (s2, v) =>
    match s2.step H N mode (.releaseRest num v c.x) with
    | some (s3, r) => match r.out with | .released m => some (s3, m) | _ => none
    | none => none

/-- `HugePageAwareAllocator::ReleaseAtLeastNPagesBreakingHugepages`, huge_page_aware_allocator.h:1252-1280. -/
def HP.releaseBreaking (H N : Nat) (mode : Bool) (s : HP) (num : Nat) (c : Choice) : Option (HP × Nat) :=
  match s.cacheRelease H N mode num c with
  | none => none
  | some (s2, v) =>
    match s2.step H N mode (.breakRest num v c.x) with
    | some (s3, r) => match r.out with | .released m => some (s3, m) | _ => none
    | none => none

/-- Pages of the heap that are backed, `stats().system_bytes - stats().unmapped_bytes` in pages. -/
def HP.backed (H N : Nat) (s : HP) : Nat :=
  match s.stats H N with
  | some st => st.system - st.unmapped
  | none => 0

/-- Nothing is left that could be returned to the kernel: no cached hugepage, no backed hugepage of a region without
allocations, and no free backed page on a hugepage of the filler (but for those passed over). -/
def HP.Exhausted (N : Nat) (s : HP) (skip : Nat → Bool) : Prop :=
  s.cache.size = 0 ∧ s.regs.freeBacked = 0 ∧
    ∀ k i id, id ∈ (s.fill.hl k).lists i → skip id = false →
      (s.fill.tr id).free.nused + (s.fill.tr id).relCount = N

variable {H N : Nat} {mode : Bool} {s : HP} {ob : List Rng} {L : List Run}

theorem giveBack_spec (e : HugeCache.Ev) {s' : HP} {r : Res} (h : s.giveBack N e = some (s', r)) :
    ∃ c o, HugeCache.step s.cache e = some (c, o) ∧ s' = { s with cache := c } ∧ r.out = outOf N o ∧ r.got = HugeCache.obtained' [] e o := by
  unfold HP.giveBack HP.onCache at h
  cases he : HugeCache.step s.cache e with
  | none => rw [he] at h; cases h
  | some x =>
    obtain ⟨c, o⟩ := x
    rw [he] at h
    cases h
    exact ⟨c, o, rfl, rfl, rfl, rfl⟩

/-- The waits of the heap are those of its cache. -/
theorem drain_cache : ∀ (bs : List Bool) (s : HP) (o : HugeCache.Out), 
    HP.drain H N mode bs s (outOf N o) = 
      if o = .waiting then (HugeCache.drain bs s.cache o).map fun x => ({ s with cache := x.1 }, outOf N x.2)
      else some (s, outOf N o)
  | [], s, o => by
    cases o <;> simp [HP.drain, HugeCache.drain, outOf]
  | b :: bs, s, o => by
    cases o with
    | waiting =>
      show HP.drain H N mode (b :: bs) s .waiting = _
      simp only [HP.drain, HugeCache.drain, if_true, HP.step, HP.giveBack, HP.onCache, HugeCache.step]
      cases ha : HugeCache.answer s.cache (s.cache.inflight.length - 1) b with
      | none => rfl
      | some x =>
        obtain ⟨c, o⟩ := x
        simp only []
        rw [drain_cache bs { s with cache := c } o]
        cases o <;> simp [HugeCache.drain]
        all_goals (cases bs <;> simp [HugeCache.drain])
    | _ => simp [HP.drain, outOf]

theorem drain_waiting (bs : List Bool) (s : HP) (o : HugeCache.Out) {c : HugeCache.S} {v : Nat}
    (h : HugeCache.drain bs s.cache o = some (c, .released v)) :
    HP.drain H N mode bs s (outOf N o) = some ({ s with cache := c }, .released (v * N)) := by
  rw [drain_cache]
  split
  · rw [h]; rfl
  · rename_i hne
    have : HugeCache.drain bs s.cache o = some (s.cache, o) := by
      cases o <;> first | exact absurd rfl hne | (cases bs <;> rfl)
    rw [this] at h
    cases h
    rfl

/-- Draining keeps the heap reachable, with the same memory and the same runs. -/
theorem drain_reach : ∀ (bs : List Bool) (s : HP) (o : Out) {s' : HP} {o' : Out}, Reach H N mode s ob L →
    HP.drain H N mode bs s o = some (s', o') → Reach H N mode s' ob L
  | [], s, o, s', o', h, e => by simp only [HP.drain, Option.some.injEq, Prod.mk.injEq] at e; exact e.1 ▸ h
  | b :: bs, s, o, s', o', h, e => by
    cases o with
    | waiting =>
      simp only [HP.drain] at e
      cases hs : s.step H N mode (.cacheAnswer (s.cache.inflight.length - 1) b) with
      | none => rw [hs] at e; cases e
      | some x =>
        obtain ⟨s1, r⟩ := x
        rw [hs] at e
        have hi : s.cache.inflight.length - 1 < s.cache.inflight.length := by
          by_cases hl : s.cache.inflight = []
          · exfalso
            simp only [HP.step, HP.giveBack, HP.onCache, HugeCache.step, HugeCache.answer, hl] at hs
            simp at hs
          · have := List.length_pos_iff.2 hl; omega
        have hr := Reach.step (.cacheAnswer (s.cache.inflight.length - 1) b) h hi hs
        obtain ⟨c, o2, e1, e2, e3, e4⟩ := giveBack_spec (N := N) (.answer (s.cache.inflight.length - 1) b) hs
        have hg : r.got = [] := by rw [e4]; cases o2 <;> rfl
        have hl : live' L (.cacheAnswer (s.cache.inflight.length - 1) b) r.out = L := by
          rw [e3]; cases o2 <;> rfl
        rw [hg, hl] at hr
        exact drain_reach bs s1 r.out hr e
    | _ => simp only [HP.drain, Option.some.injEq, Prod.mk.injEq] at e; exact e.1 ▸ h

/-- The cache's part of a release. -/
theorem cacheRelease_spec (hN : 2 ≤ N) (hH : 0 < H) (h : Reach H N mode s ob L) (num : Nat) (c : Choice)
    (hans : s.cache.size + 1 ≤ c.ans.length) :
    ∃ k v, s.cacheRelease H N mode num c = some ({ s with cache := k }, v * N) ∧ 
      Reach H N mode { s with cache := k } ob L ∧ k.inflight = s.cache.inflight ∧ v + k.size = s.cache.size ∧
      ((∀ b ∈ c.ans, b = true) → v * N < num → k.size = 0) := by
  obtain ⟨ow, u, fg, rg, runs, kk⟩ := h.k hN hH
  obtain ⟨s1, o, k, v, e1, e2, e3, e4, e5⟩ := HugeCache.releaseCached_exact kk.cache (hlFromPages N num) c.ms c.ans hans
  have hg : s.giveBack N (.releaseCached (hlFromPages N num) c.ms) = some ({ s with cache := s1 }, ⟨outOf N o, [], []⟩) := by
    unfold HP.giveBack HP.onCache; rw [e1]; cases o <;> rfl
  have hs : s.step H N mode (.releaseCached num c.ms) = some ({ s with cache := s1 }, ⟨outOf N o, [], []⟩) := hg
  have hr := Reach.step (.releaseCached num c.ms) h trivial hs
  have hl : live' L (.releaseCached num c.ms) (outOf N o) = L := by cases o <;> rfl
  rw [hl] at hr
  have hd := drain_waiting (H := H) (mode := mode) (N := N) c.ans { s with cache := s1 } o e2
  refine ⟨k, v, ?_, drain_reach _ _ _ hr hd, e3, e4, fun hb hlt => ?_⟩
  · unfold HP.cacheRelease; rw [hs]; simp only []; rw [hd]
  · have := e5 hb
    have h0 : 0 < N := by omega
    have hhl : num ≤ hlFromPages N num * N := by
      unfold hlFromPages
      have h1 := Nat.div_add_mod num N
      have h2 := Nat.mod_lt num h0
      rw [Nat.add_mul, Nat.mul_comm]
      split <;> omega
    by_cases hc : s.cache.size ≤ hlFromPages N num
    · omega
    · exfalso
      have : hlFromPages N num ≤ v := by omega
      have := Nat.mul_le_mul_right N this
      omega

/-- Free and used pages of the regions make up the backed hugepages. -/
theorem statsLoop_free (r : HugeRegion.S) : ∀ (l : List Nat) {st : PStats}, HugeRegion.statsLoop H N r l = some st →
    st.free + (l.map fun id => (r.reg id).trk.nused).sum = (l.map fun id => (r.reg id).nbacked).sum * N ∧
    st.system = l.length * (H * N)
  | [], st, h => by cases h; simp
  | id :: l, st, h => by
    simp only [HugeRegion.statsLoop, HugeRegion.R.stats, HugeRegion.R.freePages, Option.bind_eq_bind, Option.bind_eq_some_iff,
      Option.some.injEq] at h
    obtain ⟨a, ⟨f, ⟨u, hu, y, hy, hf⟩, u', hu', rfl⟩, b, hb, rfl⟩ := h
    obtain ⟨i1, i2⟩ := statsLoop_free r l hb
    unfold HugeRegion.R.unmappedPages at hu
    simp only [Option.map_eq_some_iff] at hu
    obtain ⟨w, hw, rfl⟩ := hu
    simp only [RangeTracker.subCount] at hw hy hf
    split at hw <;> simp only [Option.some.injEq, reduceCtorEq] at hw
    split at hy <;> simp only [Option.some.injEq, reduceCtorEq] at hy
    split at hf <;> simp only [Option.some.injEq, reduceCtorEq] at hf
    subst hw hy hf
    simp only [List.map_cons, List.sum_cons, List.length_cons, Nat.add_mul, i2]
    rw [Nat.sub_mul] at *
    rename_i h1 _ h3
    have := Nat.mul_le_mul_right N h1
    constructor <;> omega

theorem countP_parts {α : Type} {b z nz : α → Bool} : ∀ (l : List α), (∀ x ∈ l, nz x = !z x) →
    (∀ x ∈ l, nz x = true → b x = true) → l.countP b = l.countP (fun x => b x && z x) + l.countP nz
  | [], _, _ => rfl
  | a :: l, h1, h2 => by
    rw [List.countP_cons, List.countP_cons, List.countP_cons,
      countP_parts l (fun x hx => h1 x (by simp [hx])) (fun x hx => h2 x (by simp [hx]))]
    have g1 := h1 a (by simp)
    have g2 := h2 a (by simp)
    cases hb : b a <;> cases hz : z a <;> simp_all <;> omega

/-- Free backed pages of the regions: they fall by what is released. -/
theorem regs_free {r r' : HugeRegion.S} {g g' : HugeRegion.Gh} (h0 : 0 < N) (h : HugeRegion.Reach H N r g)
    (h' : HugeRegion.Reach H N r' g') (hl : g'.live = g.live) (hp : r'.ids.Perm r.ids) {rel : Nat}
    (hrel : r'.freeBacked * N + rel = r.freeBacked * N) {st st' : PStats} (hs : HugeRegion.S.stats H N r = some st)
    (hs' : HugeRegion.S.stats H N r' = some st') : st'.free + rel = st.free ∧ st'.system = st.system := by
  obtain ⟨-, n1, f1, -⟩ := HugeRegion.set_exact h0 h
  obtain ⟨-, n2, f2, -⟩ := HugeRegion.set_exact h0 h'
  obtain ⟨a1, a2⟩ := statsLoop_free r r.ids hs
  obtain ⟨b1, b2⟩ := statsLoop_free r' r'.ids hs'
  have hB : ∀ {r : HugeRegion.S} {g : HugeRegion.Gh}, HugeRegion.Reach H N r g → ∀ id ∈ r.ids,
      (r.reg id).nbacked = (r.reg id).freeBacked + 
        (List.range H).countP (fun x => !((List.range' (x * N) N).countP (HugeRegion.usedBy (g.live id)) == 0)) ∧
      (r.reg id).trk.nused = ((g.live id).map Prod.snd).sum := by
    intro r g h id hid
    obtain ⟨-, -, c0, -, -, c1, c2, c3, c4, c5⟩ := HugeRegion.region_exact h0 h hid
    refine ⟨?_, c0⟩
    rw [c4, c5]
    refine countP_parts _ (fun x hx => ?_) (fun x hx hnz => ?_)
    · rw [c1 x (List.mem_range.1 hx)]
    · rw [c2 x (List.mem_range.1 hx)]
      have : 0 < (List.range' (x * N) N).countP (HugeRegion.usedBy (g.live id)) := by
        simp only [Bool.not_eq_true', beq_eq_false_iff_ne] at hnz; omega
      obtain ⟨p, hp, hu⟩ := List.countP_pos_iff.1 this
      have hm := c3 p hu
      rw [List.mem_range'_1] at hp
      have : p / N = x := by
        rw [Nat.div_eq_iff h0]; omega
      rwa [this] at hm
  have hS : ∀ (l : List Nat) (r : HugeRegion.S) (g : HugeRegion.Gh), (∀ id ∈ l, 
      (r.reg id).nbacked = (r.reg id).freeBacked + 
        (List.range H).countP (fun x => !((List.range' (x * N) N).countP (HugeRegion.usedBy (g.live id)) == 0)) ∧
      (r.reg id).trk.nused = ((g.live id).map Prod.snd).sum) →
      (l.map fun id => (r.reg id).nbacked).sum = (l.map fun id => (r.reg id).freeBacked).sum +
        (l.map fun id => (List.range H).countP fun x => !((List.range' (x * N) N).countP (HugeRegion.usedBy (g.live id)) == 0)).sum ∧
      (l.map fun id => (r.reg id).trk.nused).sum = (l.map fun id => ((g.live id).map Prod.snd).sum).sum := by
    intro l r g h
    induction l with
    | nil => simp
    | cons a l ih =>
      obtain ⟨i1, i2⟩ := ih (fun id hid => h id (by simp [hid]))
      obtain ⟨j1, j2⟩ := h a (by simp)
      simp only [List.map_cons, List.sum_cons, i1, i2, j1, j2]
      exact ⟨by omega, trivial⟩
  obtain ⟨p1, p2⟩ := hS r.ids r g (fun id hid => hB h id hid)
  obtain ⟨q1, q2⟩ := hS r'.ids r' g' (fun id hid => hB h' id hid)
  rw [hl] at q1 q2
  rw [(hp.map fun id => (List.range H).countP fun x => !((List.range' (x * N) N).countP (HugeRegion.usedBy (g.live id)) == 0)).sum_nat] at q1
  rw [(hp.map fun id => ((g.live id).map Prod.snd).sum).sum_nat] at q2
  rw [← f1] at p1
  rw [← f2] at q1
  rw [p1, p2, Nat.add_mul] at a1
  rw [q1, q2, Nat.add_mul] at b1
  have := hp.length_eq
  rw [this] at b2
  exact ⟨by omega, by omega⟩

/-- The backed pages: cached hugepages, free pages that are backed, runs in use, and what is on its way. -/
theorem backed_eq (hN : 2 ≤ N) (hH : 0 < H) (h : Reach H N mode s ob L) :
    ∃ fr st, Filler.freeTotal N s.fill = some fr ∧ HugeRegion.S.stats H N s.regs = some st ∧
      s.backed H N = s.cache.size * N + fr + st.free + (L.map Run.n).sum + s.pending * N := by
  obtain ⟨st, e1, -, e2⟩ := stats_exact hN hH h
  have e1' := e1
  unfold HP.stats at e1'
  cases hf : Filler.freeTotal N s.fill with
  | none => rw [hf] at e1'; cases e1'
  | some fr =>
    cases hr : HugeRegion.S.stats H N s.regs with
    | none => rw [hf, hr] at e1'; cases e1'
    | some r =>
      rw [hf, hr] at e1'
      cases e1'
      refine ⟨fr, r, rfl, rfl, ?_⟩
      unfold HP.backed
      rw [e1]
      show _ - _ = _
      rw [e2]
      show s.cache.size * N + fr + r.free + _ + _ + _ - _ = _
      omega

/-- Free pages of the filler fall by what is unmapped. -/
theorem filler_free (hN : 2 ≤ N) {f f' : Filler.F} {g : Filler.Gh} (h : Filler.Reach N mode f g)
    (h' : Filler.Reach N mode f' g) {n : Nat} (hu : f'.unmapped = f.unmapped + n) {a b : Nat}
    (ha : Filler.freeTotal N f = some a) (hb : Filler.freeTotal N f' = some b) : b + n = a := by
  obtain ⟨-, -, -, -, u1, ⟨x, x1, x2, -⟩, le1⟩ := Filler.accounting_exact hN h
  obtain ⟨-, -, -, -, u2, ⟨y, y1, y2, -⟩, le2⟩ := Filler.accounting_exact hN h'
  rw [ha] at x1; cases x1
  rw [hb] at y1; cases y1
  have hs : ∀ (l : List Nat) (r : Nat → Nat), (∀ id ∈ l, Filler.usedPages (g.live id) + r id ≤ N) →
      (l.map fun id => N - Filler.usedPages (g.live id) - r id).sum + (l.map r).sum =
        (l.map fun id => N - Filler.usedPages (g.live id)).sum := by
    intro l r hl
    induction l with
    | nil => rfl
    | cons z l ih =>
      have := ih (fun id hid => hl id (by simp [hid]))
      have := hl z (by simp)
      simp only [List.map_cons, List.sum_cons]
      omega
  have h1 := hs g.held (fun id => Filler.relPages N (f.tr id)) le1
  have h2 := hs g.held (fun id => Filler.relPages N (f'.tr id)) le2
  rw [← u1, ← x2] at h1
  rw [← u2, ← y2] at h2
  omega

/-- No free backed page is left on the hugepages of the filler. -/
def FillerDone (N : Nat) (f : Filler.F) (skip : Nat → Bool) : Prop :=
  ∀ k i id, id ∈ (f.hl k).lists i → skip id = false → (f.tr id).free.nused + (f.tr id).relCount = N

theorem fillerDone (hN : 2 ≤ N) {f : Filler.F} {g : Filler.Gh} (h : Filler.Reach N mode f g) {skip : Nat → Bool}
    (hd : ∀ id, g.live id ≠ [] → skip id = false → Filler.usedPages (g.live id) + Filler.relPages N (f.tr id) = N) :
    FillerDone N f skip := by
  intro k i id hid hs
  have hl := ((Filler.on_its_list hN h k i id).1 hid).1
  have hk := (h.k hN).1
  have hh : id ∈ g.held := ((Filler.accounting_exact hN h).2.1 id).2 hl
  rw [hk.used_eq hh, hk.rel_eq hh]
  exact hd id hl hs

theorem fillerDone_iff (hN : 2 ≤ N) {f : Filler.F} {g : Filler.Gh} (h : Filler.Reach N mode f g) {skip : Nat → Bool} :
    FillerDone N f skip ↔
      ∀ id, g.live id ≠ [] → skip id = false → Filler.usedPages (g.live id) + Filler.relPages N (f.tr id) = N := by
  refine ⟨fun hd id hl hs => ?_, fillerDone hN h⟩
  have hk := (h.k hN).1
  have hh : id ∈ g.held := ((Filler.accounting_exact hN h).2.1 id).2 hl
  have hb := (Filler.belongs_iff (mode := mode) (hk.v hh) (Filler.G.used_rel (hk.g hh)) (Filler.place N mode (f.tr id)).1
    (Filler.place N mode (f.tr id)).2).2 rfl
  have := hd _ _ id ((Filler.on_its_list hN h _ _ id).2 ⟨hl, hb⟩) hs
  rwa [hk.used_eq hh, hk.rel_eq hh] at this

/-- Releasing keeps a filler without free backed pages so. -/
theorem fillerDone_keep (hN : 2 ≤ N) {f f' : Filler.F} {g : Filler.Gh} (h : Filler.Reach N mode f g) (h' : Filler.Reach N mode f' g)
    (hrel : ∀ x j, (f.tr x).Rel j → (f'.tr x).Rel j) {skip : Nat → Bool} (hd : FillerDone N f skip) : FillerDone N f' skip := by
  rw [fillerDone_iff hN h] at hd
  rw [fillerDone_iff hN h']
  intro id hl hs
  have h1 := hd id hl hs
  have hh : id ∈ g.held := ((Filler.accounting_exact hN h).2.1 id).2 hl
  have h2 := (Filler.accounting_exact hN h').2.2.2.2.2.2 id hh
  have h3 : Filler.relPages N (f.tr id) ≤ Filler.relPages N (f'.tr id) := by
    unfold Filler.relPages
    exact List.countP_mono_left fun j _ hj => hrel id j hj
  omega

/-- What a release does to the heap, whatever the kernel answers: `m` pages are reported. -/
structure Released (H N : Nat) (mode : Bool) (s : HP) (ob : List Rng) (L : List Run) (v : Nat) (s' : HP) (m : Nat) : Prop where
  reach : Reach H N mode s' ob L
  exact : m + s'.fill.unacc + s'.backed H N = v + s.fill.unacc + s.backed H N
  credit : s'.fill.unacc ≤ s.fill.unacc
  cache : s'.cache = s.cache
  ge : v + s.fill.unacc ≤ m + s'.fill.unacc
  keep : ∀ skip, FillerDone N s.fill skip → FillerDone N s'.fill skip
  regs : s'.regs.freeBacked ≤ s.regs.freeBacked

theorem fb_le {a b n : Nat} (h : a * N + n = b * N) (h0 : 0 < N) : a ≤ b := by
  have : a * N ≤ b * N := by omega
  exact Nat.le_of_mul_le_mul_right this h0

theorem fillerPart (hN : 2 ≤ N) (hH : 0 < H) {t : HP} {r : HugeRegion.S} {g : Filler.Gh} {rg rg' : HugeRegion.Gh} {n : Nat}
    (h : Reach H N mode s ob L) (hf : Filler.Reach N mode s.fill g) (hr : HugeRegion.Reach H N s.regs rg)
    (hr' : HugeRegion.Reach H N r rg') (hl : rg'.live = rg.live) (hp : r.ids.Perm s.regs.ids)
    (hrel : r.freeBacked * N + n = s.regs.freeBacked * N) (ht : t = { s with regs := r })
    (desired v : Nat) (x : RelArgs) (calls : List Call) :
    ∃ f m res, HP.releaseFiller N mode t desired (v + n) x calls = some ({ t with fill := f }, res) ∧ res.out = .released m ∧
      res.got = [] ∧ v + n ≤ m ∧ (Reach H N mode { t with fill := f } ob L → Released H N mode s ob L v { t with fill := f } m) ∧
      ((∀ a b, x.okF a b = true) → x.adjusted = none → desired ≤ m - (v + n) ∨ FillerDone N f x.skip) := by
  obtain ⟨f, log, e, f1, f2, f3, f4, f5, f6, f7, f8⟩ := Filler.releasePages_exact hN hf desired x.adjusted x.skip x.okF
  unfold HP.releaseFiller
  subst ht
  rw [show ({ s with regs := r } : HP).fill = s.fill from rfl, e]
  refine ⟨f, _, _, rfl, rfl, rfl, by omega, fun hR => ⟨hR, ?_, ?_, rfl, by dsimp only; omega,
    fun skip hd => fillerDone_keep hN hf f1 (fun x j hj => (f3 x j).2 (Or.inl hj)) hd, fb_le hrel (by omega)⟩, ?_⟩
  · obtain ⟨a1, b1, c1, d1, e1⟩ := backed_eq hN hH h
    obtain ⟨a2, b2, c2, d2, e2⟩ := backed_eq hN hH hR
    have hx := filler_free hN hf f1 f4 c1 c2
    have hy := (regs_free (by omega) hr hr' hl hp hrel d1 d2).1
    have hpend : HP.pending { { s with regs := r } with fill := f } = s.pending := by
      unfold HP.pending; dsimp only; rw [f6]
    rw [hpend] at e2
    show v + n + (s.fill.unacc + Filler.logSum log) + f.unacc + _ = _
    rw [e1, e2, f5]
    simp only [] at *
    omega
  · show f.unacc ≤ _
    rw [f5]; omega
  · intro hok hadj
    have hall : ∀ y ∈ log, y.2.ok = true := Filler.releasePages_ok hok e
    rcases f8 hall with h1 | h1 | h1
    · left; omega
    · left
      rw [hadj] at h1
      simp only [Filler.goal] at h1
      omega
    · right; exact fillerDone hN f1 h1

theorem rest_got {e : Ev} {s' : HP} {res : Res} (he : (∃ a b x, e = .releaseRest a b x) ∨ ∃ a b x, e = .breakRest a b x)
    {m : Nat} (h : Reach H N mode s ob L) (hs : s.step H N mode e = some (s', res)) (hg : res.got = [])
    (ho : res.out = .released m) : Reach H N mode s' ob L := by
  have hpre : e.Pre H N ob L s := by rcases he with ⟨a, b, x, rfl⟩ | ⟨a, b, x, rfl⟩ <;> trivial
  have := Reach.step e h hpre hs
  have hl : live' L e res.out = L := by
    rw [ho]; rcases he with ⟨a, b, x, rfl⟩ | ⟨a, b, x, rfl⟩ <;> rfl
  rw [hg, hl] at this
  exact this

/-- The part of `ReleaseAtLeastNPages` after the cache. -/
theorem releaseRest_spec (hN : 2 ≤ N) (hH : 0 < H) (h : Reach H N mode s ob L) (num v : Nat) (x : RelArgs) :
    ∃ s' res m, s.step H N mode (.releaseRest num v x) = some (s', res) ∧ res.out = .released m ∧
      Released H N mode s ob L v s' m ∧
      ((∀ a b, x.okF a b = true) → x.subrelease = true → x.adjusted = none → num ≤ lengthMax → m < num → FillerDone N s'.fill x.skip) := by
  obtain ⟨ow, u, fg, rg, runs, k⟩ := h.k hN hH
  have h0 : 0 < N := by omega
  have key : ∀ (t : HP) (r : HugeRegion.S) (rg' : HugeRegion.Gh) (n : Nat) (calls : List Call), t = { s with regs := r } →
      HugeRegion.Reach H N r rg' → rg'.live = rg.live → r.ids.Perm s.regs.ids →
      r.freeBacked * N + n = s.regs.freeBacked * N →
      s.step H N mode (.releaseRest num v x) = HP.releaseSub N mode t num (v + n) x calls → 
      ∃ s' res m, s.step H N mode (.releaseRest num v x) = some (s', res) ∧ res.out = .released m ∧
      Released H N mode s ob L v s' m ∧
      ((∀ a b, x.okF a b = true) → x.subrelease = true → x.adjusted = none → num ≤ lengthMax → m < num → FillerDone N s'.fill x.skip) := by
    intro t r rg' n calls ht hr' hl hp hrel hstep
    unfold HP.releaseSub at hstep
    split at hstep
    · obtain ⟨f, m, res, e1, e2, e3, e3', e4, e5⟩ := fillerPart hN hH h k.fill k.regs hr' hl hp hrel ht
        (max (if x.maxCold then lengthMax else num - (v + n)) x.partials) v x calls
      rw [e1] at hstep
      refine ⟨_, res, m, hstep, e2, e4 (rest_got (Or.inl ⟨_, _, _, rfl⟩) h hstep e3 e2), fun hok hsub hadj hmax hlt => ?_⟩
      rcases e5 hok hadj with h1 | h1
      · exfalso
        have h2 := Nat.le_trans (Nat.le_max_left _ _) h1
        split at h2
        · omega
        · omega
      · exact h1
    · rename_i hno
      have hR := rest_got (Or.inl ⟨_, _, _, rfl⟩) h hstep rfl rfl
      refine ⟨_, _, _, hstep, rfl, ⟨hR, ?_, ?_, ?_, by subst ht; dsimp only; omega, fun _ hd => by subst ht; exact hd,
        by subst ht; exact fb_le hrel h0⟩, fun _ hsub _ _ hlt => ?_⟩
      · obtain ⟨a1, b1, c1, d1, e1⟩ := backed_eq hN hH h
        obtain ⟨a2, b2, c2, d2, e2⟩ := backed_eq hN hH hR
        subst ht
        have hy := (regs_free h0 k.regs hr' hl hp hrel d1 d2).1
        rw [show ({ s with regs := r } : HP).fill = s.fill from rfl] at c2
        rw [c1] at c2
        cases c2
        rw [e1, e2]
        have hpend : HP.pending { s with regs := r } = s.pending := rfl
        rw [hpend]
        dsimp only
        omega
      · subst ht; exact Nat.le_refl _
      · subst ht; rfl
      · exact absurd ⟨hsub, Or.inl hlt⟩ hno
  by_cases hm : s.regs.more = true
  · obtain ⟨rs, n, log, e, e1, e2, e3, e4, e5, e6, e7, e8⟩ := HugeRegion.releasePages_exact h0 k.regs (num - v) x.adaptive false x.frac x.okR
    refine key { s with regs := rs } rs _ n (regionCalls N s log) rfl e1 rfl e8.1 e6 ?_
    show HP.releaseRest H N mode s num v x = _
    unfold HP.releaseRest
    rw [if_pos hm, e]
  · refine key s s.regs rg 0 [] rfl k.regs rfl (List.Perm.refl _) rfl ?_
    show HP.releaseRest H N mode s num v x = _
    unfold HP.releaseRest
    rw [if_neg hm]
    rfl

/-- The part of `ReleaseAtLeastNPagesBreakingHugepages` after the cache. -/
theorem breakRest_spec (hN : 2 ≤ N) (hH : 0 < H) (h : Reach H N mode s ob L) (num v : Nat) (x : RelArgs) :
    ∃ s' res m, s.step H N mode (.breakRest num v x) = some (s', res) ∧ res.out = .released m ∧
      Released H N mode s ob L v s' m ∧
      ((∀ a b, x.okF a b = true) → (∀ a b, x.okR a b = true) → m < num → s'.regs.freeBacked = 0 ∧ FillerDone N s'.fill x.skip) := by
  obtain ⟨ow, u, fg, rg, runs, k⟩ := h.k hN hH
  have h0 : 0 < N := by omega
  obtain ⟨rs, n, log, e, e1, e2, e3, e4, e5, e6, e7, e8⟩ := HugeRegion.releasePages_exact h0 k.regs (num - v) x.adaptive true x.frac x.okR
  have hstep : s.step H N mode (.breakRest num v x) = HP.breakRest H N mode s num v x := rfl
  unfold HP.breakRest at hstep
  rw [e] at hstep
  dsimp only at hstep
  split at hstep
  · rename_i hge
    have hR := rest_got (Or.inr ⟨_, _, _, rfl⟩) h hstep rfl rfl
    refine ⟨_, _, _, hstep, rfl, ⟨hR, ?_, Nat.le_refl _, rfl, by dsimp only; omega, fun _ hd => hd, fb_le e6 h0⟩, fun _ _ hlt => absurd hlt (by omega)⟩
    obtain ⟨a1, b1, c1, d1, f1⟩ := backed_eq hN hH h
    obtain ⟨a2, b2, c2, d2, f2⟩ := backed_eq hN hH hR
    have hy := (regs_free h0 k.regs e1 rfl e8.1 e6 d1 d2).1
    rw [show ({ s with regs := rs } : HP).fill = s.fill from rfl] at c2
    rw [c1] at c2
    cases c2
    rw [f1, f2]
    have hpend : HP.pending { s with regs := rs } = s.pending := rfl
    rw [hpend]
    dsimp only
    omega
  · rename_i hlt
    obtain ⟨f, m, res, g1, g2, g3, g3', g4, g5⟩ := fillerPart hN hH h k.fill k.regs e1 rfl e8.1 e6 rfl
        (num - (v + n)) v { x with adjusted := none } (regionCalls N s log)
    rw [g1] at hstep
    refine ⟨_, res, m, hstep, g2, g4 (rest_got (Or.inr ⟨_, _, _, rfl⟩) h hstep g3 g2), fun hok hok' hm => ⟨?_, ?_⟩⟩
    · rcases e5 (HugeRegion.releasePages_ok hok' e) with h1 | h1
      · exfalso
        simp only [HugeRegion.aim, if_true] at h1
        omega
      · exact h1.2
    · rcases g5 hok rfl with h1 | h1
      · exfalso; omega
      · exact h1

/-- Everything the kernel is asked in a release is granted. -/
def Choice.granted (c : Choice) : Prop :=
  (∀ b ∈ c.ans, b = true) ∧ (∀ a b, c.x.okF a b = true) ∧ ∀ a b, c.x.okR a b = true

/-- After the cache's part and another part that reports `m` in all. -/
theorem Released.after (hN : 2 ≤ N) (hH : 0 < H) (h : Reach H N mode s ob L) {k : HugeCache.S} {v m : Nat} {s' : HP}
    (e2 : Reach H N mode { s with cache := k } ob L) (e3 : k.inflight = s.cache.inflight) (e4 : v + k.size = s.cache.size)
    (g3 : Released H N mode { s with cache := k } ob L (v * N) s' m) :
    m + s'.fill.unacc + s'.backed H N = s.fill.unacc + s.backed H N := by
  obtain ⟨a1, b1, c1, d1, f1⟩ := backed_eq hN hH h
  obtain ⟨a2, b2, c2, d2, f2⟩ := backed_eq hN hH e2
  have c2' : Filler.freeTotal N s.fill = some a2 := c2
  have d2' : HugeRegion.S.stats H N s.regs = some b2 := d2
  rw [c1] at c2'; cases c2'
  rw [d1] at d2'; cases d2'
  have hpend : HP.pending { s with cache := k } = s.pending := by
    unfold HP.pending HugeCache.S.busy; dsimp only; rw [e3]
  rw [hpend] at f2
  have hx := g3.exact
  dsimp only at hx f2
  rw [f2] at hx
  rw [hx, f1, ← e4, Nat.add_mul]
  omega

/-- **One heap, `ReleaseAtLeastNPages`.**  It succeeds and keeps every run in use; the pages it reports are those it
returned to the kernel plus the credit it claims for pages returned earlier; if nothing is refused and it reports fewer
pages than asked for, the cache is empty and, if it may release from the filler and no skip interval applies, no free
backed page is left there. -/
theorem heap_release (hN : 2 ≤ N) (hH : 0 < H) (h : Reach H N mode s ob L) (num : Nat) (c : Choice)
    (hans : s.cache.size + 1 ≤ c.ans.length) :
    ∃ s' m, s.releaseAtLeast H N mode num c = some (s', m) ∧ Reach H N mode s' ob L ∧
      m + s'.fill.unacc + s'.backed H N = s.fill.unacc + s.backed H N ∧ s'.fill.unacc ≤ s.fill.unacc ∧ s'.backed H N ≤ s.backed H N ∧
      s'.cache.size ≤ s.cache.size ∧ (∀ skip, s.Exhausted N skip → s'.Exhausted N skip) ∧
      (c.granted → m < num → s'.cache.size = 0 ∧
        (c.x.subrelease = true → c.x.adjusted = none → num ≤ lengthMax → FillerDone N s'.fill c.x.skip)) := by
  obtain ⟨k, v, e1, e2, e3, e4, e5⟩ := cacheRelease_spec hN hH h num c hans
  obtain ⟨s', res, m, g1, g2, g3, g4⟩ := releaseRest_spec hN hH e2 num (v * N) c.x
  refine ⟨s', m, ?_, g3.reach, g3.after hN hH h e2 e3 e4, g3.credit,
    by have := g3.after hN hH h e2 e3 e4; have := g3.ge; dsimp only at this; omega, ?_,
    fun skip he => ⟨by rw [g3.cache]; show k.size = 0; have := he.1; omega, by have := he.2.1; have := g3.regs; dsimp only at this; omega,
      g3.keep skip he.2.2⟩,
    fun hc hlt => ⟨?_, fun hs ha hm => g4 hc.2.1 hs ha hm hlt⟩⟩
  · unfold HP.releaseAtLeast; rw [e1]; simp only []; rw [g1]; simp only []; rw [g2]
  · rw [g3.cache]; show k.size ≤ _; omega
  · rw [g3.cache]
    have := g3.ge
    have := g3.credit
    dsimp only at *
    exact e5 hc.1 (by omega)

/-- **One heap, `ReleaseAtLeastNPagesBreakingHugepages`.**  As above; and if nothing is refused and it reports fewer
pages than asked for, nothing releasable is left in the heap. -/
theorem heap_break (hN : 2 ≤ N) (hH : 0 < H) (h : Reach H N mode s ob L) (num : Nat) (c : Choice)
    (hans : s.cache.size + 1 ≤ c.ans.length) :
    ∃ s' m, s.releaseBreaking H N mode num c = some (s', m) ∧ Reach H N mode s' ob L ∧
      m + s'.fill.unacc + s'.backed H N = s.fill.unacc + s.backed H N ∧ s'.fill.unacc ≤ s.fill.unacc ∧ s'.backed H N ≤ s.backed H N ∧
      s'.cache.size ≤ s.cache.size ∧ (∀ skip, s.Exhausted N skip → s'.Exhausted N skip) ∧
      (c.granted → m < num → s'.Exhausted N c.x.skip) := by
  obtain ⟨k, v, e1, e2, e3, e4, e5⟩ := cacheRelease_spec hN hH h num c hans
  obtain ⟨s', res, m, g1, g2, g3, g4⟩ := breakRest_spec hN hH e2 num (v * N) c.x
  refine ⟨s', m, ?_, g3.reach, g3.after hN hH h e2 e3 e4, g3.credit,
    by have := g3.after hN hH h e2 e3 e4; have := g3.ge; dsimp only at this; omega, ?_,
    fun skip he => ⟨by rw [g3.cache]; show k.size = 0; have := he.1; omega, by have := he.2.1; have := g3.regs; dsimp only at this; omega,
      g3.keep skip he.2.2⟩, fun hc hlt => ⟨?_, g4 hc.2.1 hc.2.2 hlt⟩⟩
  · unfold HP.releaseBreaking; rw [e1]; simp only []; rw [g1]; simp only []; rw [g2]
  · rw [g3.cache]; show k.size ≤ _; omega
  · rw [g3.cache]
    have := g3.ge
    have := g3.credit
    dsimp only at *
    exact e5 hc.1 (by omega)

end Verif.PageHeap
