import Verif.ThreadHeap.Main
/-!
The composed heap in per-thread mode: blocks of users never overlap and keep their contents (C01), pages of live blocks are never given back
to the kernel (C13), nothing leaks (C55), no assertion fails.
-/
namespace Verif.ThreadHeap
open Verif.Span (Geo Mem IsObj InObj)
open Verif.PageHeap (HP Run Call)
open Verif.HugeAddressMap (Rng Cov lenSum)

variable {cfg : Cfg} {h h' : Heap}

theorem has_pg (r : Run) (b : Nat) : r.Has (b / 2 ^ cfg.ps) ↔ r.p * 2 ^ cfg.ps ≤ b ∧ b < (r.p + r.n) * 2 ^ cfg.ps := by
  have h2 : 0 < 2 ^ cfg.ps := Nat.two_pow_pos _
  unfold PageHeap.Run.Has
  rw [Nat.le_div_iff_mul_le h2, Nat.div_lt_iff_lt_mul h2]

/-- The run of pages a live block is in. -/
theorem Inv.inRun (I : Inv cfg z h) (hc : cfg.OK) {b : Block} (hb : b ∈ h.live cfg) :
    0 < b.size ∧ ∃ x ∈ h.led, ∀ y, b.addr ≤ y → y < b.addr + b.size → x.2.Has (y / 2 ^ cfg.ps) := by
  rcases I.block hc hb with ⟨k, o, r, rfl, -, hu, -, hr, hn, ho⟩ | ⟨t, r, rfl, hr⟩
  · refine ⟨(hc.geo k hu).1.sizePos, (.lent k, r), hr, fun y h1 h2 => ?_⟩
    have := obj_has hc hu hn ho
    show r.Has _
    rw [has_pg]
    simp only at h1 h2
    omega
  · have hpos : 0 < r.n :=
      ((PageHeap.runs_disjoint hc.N2 hc.H0 (I.page _)).2.1 r ((I.led _).mem_iff.1 (mem_ofTag.2 ⟨_, hr, rfl⟩))).1
    refine ⟨Nat.mul_pos hpos (Nat.two_pow_pos _), (.big t, r), hr, fun y h1 h2 => ?_⟩
    rw [has_pg, Nat.add_mul]
    exact ⟨h1, h2⟩

theorem apart_of {b c : Block} (hb : 0 < b.size) (hc : 0 < c.size)
    (hd : ∀ y, b.addr ≤ y → y < b.addr + b.size → c.addr ≤ y → y < c.addr + c.size → False) : b.Apart c := by
  unfold Block.Apart
  apply Classical.byContradiction
  intro hn
  by_cases h1 : b.addr ≤ c.addr
  · exact hd c.addr h1 (by omega) (Nat.le_refl _) (by omega)
  · exact hd b.addr (Nat.le_refl _) (by omega) (by omega) (by omega)

theorem filterMap_pairwise {α β : Type} {f : α → Option β} {R : α → α → Prop} {S : β → β → Prop}
    (hRS : ∀ a b x y, f a = some x → f b = some y → R a b → S x y) : ∀ {l : List α}, l.Pairwise R → (l.filterMap f).Pairwise S
  | [], _ => .nil
  | a :: l, h => by
    obtain ⟨h1, h2⟩ := List.pairwise_cons.1 h
    rw [List.filterMap_cons]
    split
    · exact filterMap_pairwise hRS h2
    · next x hx =>
      refine List.pairwise_cons.2 ⟨fun y hy => ?_, filterMap_pairwise hRS h2⟩
      obtain ⟨b, hb, hy⟩ := List.mem_filterMap.1 hy
      exact hRS a b x y hx hy (h1 b hb)

/-- **C01.** At every moment of every history, no two blocks that users have share a byte, whatever they are (objects of
any size classes, runs of pages, of any memory tags) and whatever threads, background threads and kernel do; no block is
empty, and none contains address 0. -/
theorem live_blocks_disjoint (hc : cfg.OK) (r : Reach cfg h) :
    (h.live cfg).Pairwise Block.Apart ∧ ∀ b ∈ h.live cfg, 0 < b.size ∧ b.addr ≠ 0 := by
  have I := r.inv hc
  constructor
  · have hblk : ∀ b ∈ h.live cfg, 0 < b.size := fun b hb => (I.inRun hc hb).1
    unfold Heap.live at hblk ⊢
    rw [List.pairwise_append]
    refine ⟨?_, ?_, ?_⟩
    · rw [List.pairwise_map]
      have hnd := I.userNodup hc
      refine List.Pairwise.imp_of_mem ?_ hnd
      intro x y hx hy hne
      obtain ⟨k, o⟩ := x
      obtain ⟨k', o'⟩ := y
      obtain ⟨hu, hh⟩ := I.user hc hx
      obtain ⟨hu', hh'⟩ := I.user hc hy
      obtain ⟨r1, h1, h2, h3⟩ := I.held hc hu hh
      obtain ⟨r2, h1', h2', h3'⟩ := I.held hc hu' hh'
      by_cases he : (Owner.lent k, r1) = (Owner.lent k', r2)
      · cases he
        exact obj_apart (g := CentralFreeList.spanAt (cfg.geo k) r1.p) h3 h3' fun h : o = o' => hne (by rw [h])
      · refine apart_of (hc.geo k hu).1.sizePos (hc.geo k' hu').1.sizePos fun y g1 g2 g3 g4 => ?_
        have a1 := obj_has hc hu h2 h3
        have a2 := obj_has hc hu' h2' h3'
        refine I.apart hc h1 h1' he (p := y / 2 ^ cfg.ps) ?_ ?_
        · show r1.Has _; rw [has_pg]; simp only [objBlock] at g1 g2; omega
        · show r2.Has _; rw [has_pg]; simp only [objBlock] at g3 g4; omega
    · rw [List.pairwise_map]
      have hd := I.disjoint hc
      refine List.Pairwise.imp_of_mem (R := fun x y : Run => ∀ p, x.Has p → ¬ y.Has p) ?_ ?_
      · intro x y hx hy hp
        have e1 := hblk (runBlock cfg x) (List.mem_append_right _ (List.mem_map_of_mem hx))
        have e2 := hblk (runBlock cfg y) (List.mem_append_right _ (List.mem_map_of_mem hy))
        refine apart_of e1 e2 fun b g1 g2 g3 g4 => hp (b / 2 ^ cfg.ps) ?_ ?_
        · rw [has_pg, Nat.add_mul]; exact ⟨g1, g2⟩
        · rw [has_pg, Nat.add_mul]; exact ⟨g3, g4⟩
      · refine filterMap_pairwise ?_ hd
        rintro ⟨o, a⟩ ⟨o', b⟩ x y h1 h2 h3
        cases o <;> simp at h1
        cases o' <;> simp at h2
        subst h1 h2
        exact h3
    · intro b hb c hc'
      obtain ⟨⟨k, o⟩, hx, rfl⟩ := List.mem_map.1 hb
      obtain ⟨r2, hy, rfl⟩ := List.mem_map.1 hc'
      obtain ⟨t, ht⟩ := mem_bigs.1 hy
      obtain ⟨hu, hh⟩ := I.user hc hx
      obtain ⟨r1, h1, h2, h3⟩ := I.held hc hu hh
      refine apart_of (hblk _ (List.mem_append_left _ hb)) (hblk _ (List.mem_append_right _ hc')) fun y g1 g2 g3 g4 => ?_
      have a1 := obj_has hc hu h2 h3
      refine I.apart hc h1 ht (by simp) (p := y / 2 ^ cfg.ps) ?_ ?_
      · show r1.Has _; rw [has_pg]; simp only [objBlock] at g1 g2; omega
      · rw [has_pg, Nat.add_mul]; exact ⟨g3, g4⟩
  · intro b hb
    obtain ⟨h0, x, hx, hp⟩ := I.inRun hc hb
    refine ⟨h0, fun ha => ?_⟩
    have := I.page0 hc (o := x.1) (r := x.2) hx (hp b.addr (Nat.le_refl _) (by omega))
    rw [ha, Nat.zero_div] at this
    exact this rfl

/-- **C01.** Nothing but a user's write changes a live block: whatever step of whatever part of the allocator, of the
kernel or of other users, a word of a block that is live, and not given up with this very step, is the same after it. -/
theorem contents_kept (hc : cfg.OK) (r : Reach cfg h) {e : Ev} (hp : Pre cfg h e) {o : Out}
    (hs : step cfg h e = some (h', o)) (hw : ∀ w, e ≠ .write w) {b : Block} (hb : b ∈ h.live cfg) (hf : b ∉ e.freed cfg)
    {a : Nat} (ha : b.Has a) : h'.mem a = h.mem a ∧ b ∈ h'.live cfg := by
  have I := r.inv hc
  obtain ⟨I', hk, hst, -⟩ := (I.main hc hp).2 h' o hs
  rcases Classical.em (∃ w, e = .link w) with ⟨w, rfl⟩ | hl
  · cases hs
    refine ⟨?_, hb⟩
    apply Classical.byContradiction
    intro hne
    obtain ⟨y, hy, hya⟩ := hp a hne
    have hm : y ∈ h.tc.objects cfg.tc := by rw [objects_eq]; exact List.mem_append_right _ hy
    rcases I.block hc hb with ⟨k, o, r, rfl, hx, -⟩ | ⟨t, r, rfl, hr⟩
    · exact I.objectsApart hc hm (by rw [objects_eq]; exact List.mem_append_left _ hx) (I.cachedNotUser hc hy hx) hya
        (by exact ha)
    · refine I.runApart hc hm hr hya ?_
      rw [pg_has, Nat.add_mul]; exact ha
  obtain ⟨k1, k2⟩ := hk hw (fun w he => hl ⟨w, he⟩)
  rcases I.block hc hb with ⟨k, o, r, rfl, hx, hu, hh, -⟩ | ⟨t, r, rfl, hr⟩
  · have hx' := hst.1 (k, o) hx hf
    exact ⟨k1 k o hu hh (I'.user hc hx').2 a ha, List.mem_append_left _ (List.mem_map.2 ⟨_, hx', rfl⟩)⟩
  · have hr' := hst.2 t r hr hf
    refine ⟨k2 t r hr hr' a ?_, List.mem_append_right _ (List.mem_map.2 ⟨_, mem_bigs.2 ⟨t, hr'⟩, rfl⟩)⟩
    rw [pg_has, Nat.add_mul]; exact ha

/-- **C01.** What the threads write to the objects in their caches stays: no step but their own writes, and no write of a
user, changes a word of an object that is in a cache and is in a cache or with a user after it.  So the linked lists of the
caches are always what the threads have made them. -/
theorem cached_kept (hc : cfg.OK) (r : Reach cfg h) {e : Ev} (hp : Pre cfg h e) {o : Out}
    (hs : step cfg h e = some (h', o)) (hl : ∀ w, e ≠ .link w) {x : Nat × Nat} (hx : x ∈ h.cached cfg)
    (hx' : x ∈ h'.cached cfg ∨ x ∈ h'.tc.user) {a : Nat} (ha : (objBlock cfg x).Has a) : h'.mem a = h.mem a := by
  have I := r.inv hc
  obtain ⟨I', hk, -⟩ := (I.main hc hp).2 h' o hs
  have hm : x ∈ h.tc.objects cfg.tc := by rw [objects_eq]; exact List.mem_append_right _ hx
  rcases Classical.em (∃ w, e = .write w) with ⟨w, rfl⟩ | hw
  · cases hs
    apply Classical.byContradiction
    intro hne
    obtain ⟨b, hb, hba⟩ := hp a hne
    rcases I.block hc hb with ⟨k, o, r, rfl, hy, -⟩ | ⟨t, r, rfl, hr⟩
    · exact I.objectsApart hc hm (by rw [objects_eq]; exact List.mem_append_left _ hy) (I.cachedNotUser hc hx hy) ha
        (by exact hba)
    · refine I.runApart hc hm hr ha ?_
      rw [pg_has, Nat.add_mul]; exact hba
  · obtain ⟨k, o⟩ := x
    have hm' : (k, o) ∈ h'.tc.objects cfg.tc := by
      rw [objects_eq]; exact List.mem_append.2 hx'.symm
    exact (hk (fun w he => hw ⟨w, he⟩) hl).1 k o (I.object hc hm).1 (I.object hc hm).2 (I'.object hc hm').2 a ha

/-- **C01.** Users have exactly what they were given and have not freed. -/
theorem live_exact (hc : cfg.OK) (r : Reach cfg h) {e : Ev} (hp : Pre cfg h e) {o : Out}
    (hs : step cfg h e = some (h', o)) : (e.freed cfg ++ h'.live cfg).Perm (returned cfg e o ++ h.live cfg) :=
  (((r.inv hc).main hc hp).2 h' o hs).2.2.2

/-- **C01.** A block handed out shares no byte with any block live at that moment. -/
theorem returned_fresh (hc : cfg.OK) (r : Reach cfg h) {e : Ev} (hp : Pre cfg h e) {o : Out}
    (hs : step cfg h e = some (h', o)) (hf : e.freed cfg = []) {b c : Block} (hb : b ∈ returned cfg e o) (hcl : c ∈ h.live cfg) :
    b.Apart c := by
  have h1 := live_exact hc r hp hs
  rw [hf, List.nil_append] at h1
  have h2 := (h1.pairwise_iff (R := Block.Apart) (fun {x y} (h : x.Apart y) => (Or.comm.1 h : y.Apart x))).1
    (live_blocks_disjoint hc (r.step e hp hs)).1
  exact (List.pairwise_append.1 h2).2.2 b hb c hcl

/-- No check fails and nothing is undefined, in any part, for whatever the environment may do. -/
theorem step_defined (hc : cfg.OK) (r : Reach cfg h) {e : Ev} (hp : Pre cfg h e) :
    ∃ h' o, step cfg h e = some (h', o) := ((r.inv hc).main hc hp).1

/-- **C13.** The allocator never gives the kernel a page with a byte of a block that is live after the call, in whatever
page heap; and what waits to be given to the kernel has no byte of a live block. -/
theorem live_never_released (hc : cfg.OK) (r : Reach cfg h) :
    (∀ t e who w h' res, Pre cfg h (.page t e who w) → step cfg h (.page t e who w) = some (h', .page t res) →
      ∀ c ∈ res.calls, ∀ b ∈ h'.live cfg, ∀ y, b.addr ≤ y → y < b.addr + b.size → ¬ c.Has (y / 2 ^ cfg.ps)) ∧
    ∀ t, ∀ b ∈ h.live cfg, ∀ y, b.addr ≤ y → y < b.addr + b.size → ¬ (h.page t).leaving cfg.N (y / 2 ^ cfg.ps) := by
  have I := r.inv hc
  constructor
  · intro t e who w h' res hp hs c hcm b hb y h1 h2 hcy
    obtain ⟨h1', s, r', g1, -, I', -, -, -, hcalls⟩ := I.pageStep hc hp
    rw [g1] at hs; cases hs
    obtain ⟨-, x, hx, hxp⟩ := I'.inRun hc hb
    exact hcalls c hcm x hx _ hcy (hxp y h1 h2)
  · intro t b hb y h1 h2 hl
    obtain ⟨-, x, hx, hxp⟩ := I.inRun hc hb
    have hy := hxp y h1 h2
    by_cases ht : x.1.tag cfg = t
    · exact PageHeap.live_never_leaving hc.N2 hc.H0 (I.page t) x.2 ((I.led t).mem_iff.1 (mem_ofTag.2 ⟨x.1, hx, ht⟩)) _ hy hl
    · exact I.obs _ _ ht _ (I.cov hc (o := x.1) (r := x.2) hx hy) (PageHeap.leaving_cov hc.N2 hc.H0 (I.page t) hl)

/-! ### Accounting -/

/-- Pages of tag `t` that are with owners of a kind. -/
def Heap.pages (h : Heap) (p : Owner → Bool) : Nat := ((h.led.filter fun x => p x.1).map fun x => x.2.n).sum

/-- Objects of class `k` in a list. -/
def ofK (k : Nat) (l : List (Nat × Nat)) : Nat := l.countP fun x => decide (x.1 = k)

/-- Objects of the spans of class `k` that are free in the central free list. -/
def Heap.freeObjs (cfg : Cfg) (h : Heap) (k : Nat) : Nat :=
  ((h.tier k).x.sp.map fun p => (cfg.geo k).count - (CentralFreeList.outOf (cfg.geo k) (h.tier k).x p).length).sum

/-- Objects of class `k` in the thread caches. -/
def Heap.tcObjs (cfg : Cfg) (h : Heap) (k : Nat) : Nat := ofK k (h.cached cfg)

theorem sum_sub {α : Type} {f : α → Nat} {c : Nat} : ∀ {l : List α}, (∀ x ∈ l, f x ≤ c) →
    (l.map fun x => c - f x).sum + (l.map f).sum = l.length * c
  | [], _ => by simp
  | x :: l, hl => by
    have := sum_sub (l := l) fun y hy => hl y (.tail _ hy)
    have := hl x (.head _)
    simp only [List.map_cons, List.sum_cons, List.length_cons, Nat.succ_mul]
    omega

theorem countP_of_count {k : Nat} {l : List (Nat × Nat)} {m : List Nat} (h : ∀ o, l.count (k, o) = m.count o) : ofK k l = m.length := by
  have : (l.filter fun x => decide (x.1 = k)).Perm (m.map fun o => (k, o)) := by
    rw [List.perm_iff_count]
    rintro ⟨k', o⟩
    have h2 := pairs_count k k' o m
    unfold ThreadCache.pairs at h2
    rw [h2]
    by_cases hk : k' = k
    · subst hk
      rw [if_pos rfl, List.count_filter (by simp), h]
    · rw [if_neg hk, List.count_eq_zero]
      intro hm
      have := (List.mem_filter.1 hm).2
      simp at this; exact hk this
  unfold ofK
  rw [List.countP_eq_length_filter, this.length_eq, List.length_map]

/-- **C55.** Every object of every span of a class is in exactly one place: with a user; in a thread's
cache; in a transfer cache; in a batch on its way down; in the batch of a call that waits for the page heap; free
in its span.  And every span has an object that is not free in it. -/
theorem objects_accounted (hc : cfg.OK) (r : Reach cfg h) {k : Nat} (hk : cfg.tc.Used k) :
    (h.tier k).x.sp.length * (cfg.geo k).count =
      ofK k h.tc.user + h.tcObjs cfg k + (h.tier k).cached.length + (h.tier k).flying.length +
      (CentralFreeList.inHand (h.tier k).x.c).length + h.freeObjs cfg k ∧
    ∀ p ∈ (h.tier k).x.sp, 0 < (CentralFreeList.outOf (cfg.geo k) (h.tier k).x p).length := by
  have I := r.inv hc
  obtain ⟨g, -⟩ := hc.geo k hk
  obtain ⟨h1, h2, -⟩ := TransferCache.conserved g hk.2.2.2 _ (I.tier k)
  obtain ⟨-, -, h3⟩ := CentralFreeList.no_idle_span g _ h1
  refine ⟨?_, fun p hp => (h3 p hp).1⟩
  obtain ⟨live, hi⟩ := h1.inv g
  have h4 := CentralFreeList.sum_out g hi
  have h5 := sum_sub (f := fun p => (CentralFreeList.outOf (cfg.geo k) (h.tier k).x p).length) fun p hp => (h3 p hp).2
  have h6 := h2.length_eq
  have h7 : ofK k (h.tc.objects cfg.tc) = (h.tier k).held.length := countP_of_count fun o => by
    have := I.objs k o; simpa using this
  have h8 : ofK k (h.tc.objects cfg.tc) = ofK k h.tc.user + h.tcObjs cfg k := by
    rw [objects_eq]
    unfold Heap.tcObjs ofK
    rw [List.countP_append]
  simp only [List.length_append] at h4 h6
  unfold Heap.freeObjs
  omega

/-- **C55.** Every page the system has given to a tag is free or unmapped in its page heap, in the hands of a call in
progress, or out with an owner, and so every byte is accounted for. -/
theorem pages_accounted (hc : cfg.OK) (r : Reach cfg h) (t : Nat) :
    ∃ st, (h.page t).stats cfg.H cfg.N = some st ∧ st.system = lenSum (h.ob t) * cfg.N ∧
      st.system = st.free + st.unmapped + (h.page t).pending * cfg.N + h.pages (fun o => decide (o.tag cfg = t)) := by
  have I := r.inv hc
  obtain ⟨st, h1, h2, h3⟩ := PageHeap.stats_exact hc.N2 hc.H0 (I.page t)
  refine ⟨st, h1, h2, ?_⟩
  have h4 : h.pages (fun o => decide (o.tag cfg = t)) = ((h.runs t).map Run.n).sum := by
    rw [← ((I.led t).map Run.n).sum_nat]
    unfold Heap.pages ofTag
    rw [List.map_map]; rfl
  omega

/-- Users have freed everything, the caches have been drained and no call is in progress in any cache. -/
structure Drained (cfg : Cfg) (h : Heap) : Prop where
  user : h.live cfg = []
  tc : ∀ k, cfg.tc.Used k → h.tcObjs cfg k = 0
  tier : ∀ k, cfg.tc.Used k → (h.tier k).cached = [] ∧ (h.tier k).flying = [] ∧ (h.tier k).x.c.pend = []
  calls : ∀ k r, (Owner.fresh k, r) ∉ h.led ∧ (Owner.dying k, r) ∉ h.led

/-- **C55.** Nothing leaks: whatever has happened before, when users have freed everything and the caches are drained, no
span is out, and the page heaps have everything the system has given them: it is free or unmapped (or, for a call of the
page heap in progress, on its way there). -/
theorem no_leak (hc : cfg.OK) (r : Reach cfg h) (hd : Drained cfg h) :
    h.led = [] ∧ ∀ t, h.runs t = [] ∧ ∃ st, (h.page t).stats cfg.H cfg.N = some st ∧ st.system = lenSum (h.ob t) * cfg.N ∧
      st.system = st.free + st.unmapped + (h.page t).pending * cfg.N ∧ ((h.page t).quiet → st.system = st.free + st.unmapped) := by
  have I := r.inv hc
  have hl : h.led = [] := by
    rw [List.eq_nil_iff_forall_not_mem]
    rintro ⟨o, x⟩ hx
    cases o with
    | fresh k => exact (hd.calls k x).1 hx
    | dying k => exact (hd.calls k x).2 hx
    | big t =>
      have : runBlock cfg x ∈ h.live cfg := List.mem_append_right _ (List.mem_map.2 ⟨_, mem_bigs.2 ⟨t, hx⟩, rfl⟩)
      rw [hd.user] at this; cases this
    | lent k =>
      have hu := (I.size k x (Or.inr hx)).1
      obtain ⟨h1, h2⟩ := objects_accounted hc r hu
      have hsp : x.p ∈ (h.tier k).x.sp := (I.lent k).mem_iff.1 (mem_ofClass.2 ⟨x, hx, rfl⟩)
      have h3 := h2 _ hsp
      obtain ⟨c1, c2, c3⟩ := hd.tier k hu
      obtain ⟨g, -⟩ := hc.geo k hu
      have hin : CentralFreeList.inHand (h.tier k).x.c = [] := by unfold CentralFreeList.inHand; rw [c3]; rfl
      have hus : h.tc.user = [] := by
        have := hd.user
        unfold Heap.live at this
        exact List.map_eq_nil_iff.1 (List.append_eq_nil_iff.1 this).1
      have hheld : (h.tier k).x.held = [] := by
        have h5 := (TransferCache.conserved g hu.2.2.2 _ (I.tier k)).2.1
        rw [c1, c2, List.append_nil, List.append_nil] at h5
        have h7 : ofK k (h.tc.objects cfg.tc) = (h.tier k).held.length := countP_of_count fun o => by
          have := I.objs k o; simpa using this
        have h8 := hd.tc k hu
        rw [objects_eq, hus, List.nil_append] at h7
        unfold Heap.tcObjs at h8
        have h9 : (h.tier k).held.length = 0 := by omega
        rw [List.length_eq_zero_iff.1 h9] at h5
        exact h5.symm.eq_nil
      unfold CentralFreeList.outOf at h3
      rw [hheld, hin] at h3
      exact absurd h3 (by simp)
  refine ⟨hl, fun t => ?_⟩
  have hr : h.runs t = [] := by
    have := I.led t
    rw [hl] at this
    exact this.symm.eq_nil
  obtain ⟨st, h1, h2, h3⟩ := PageHeap.stats_exact hc.N2 hc.H0 (I.page t)
  rw [hr] at h3
  refine ⟨hr, st, h1, h2, by simpa [Nat.add_assoc] using h3, fun hq => ?_⟩
  obtain ⟨st', g1, g2, g3⟩ := PageHeap.stats_quiet hc.N2 hc.H0 (I.page t) hq
  rw [h1] at g1; cases g1
  rw [hr] at g3
  simp at g3 h3
  omega

end Verif.ThreadHeap
