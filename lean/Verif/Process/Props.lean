import Verif.Process.Spec
/-! C82: the allocator keeps to the memory it was given; guarded and other blocks share an address space (C01). -/
namespace Verif.Process
open Verif.Span (Mem)
open Verif.HugeAddressMap (Rng Cov)
open Verif.Heap (Heap Cfg Block pg)

variable {cfg : Cfg} {limit : Nat} {c : Guarded.Cfg} {w : Mem} {G : List Rng} {h h' : Heap} {p : Proc}

theorem given_iff (hc : cfg.OK limit) {G : List Rng} {y : Nat} : Given cfg G y ↔ Cov G (y / 2 ^ cfg.ps / cfg.N) := by
  have h2 : 0 < 2 ^ cfg.ps := Nat.two_pow_pos _
  have hN : 0 < cfg.N := by have := hc.N2; omega
  unfold Given Cov
  refine exists_congr fun r => and_congr Iff.rfl ?_
  unfold HugeAddressMap.Rng.Has hugeBytes
  rw [Nat.le_div_iff_mul_le hN, Nat.le_div_iff_mul_le h2, Nat.div_lt_iff_lt_mul hN, Nat.div_lt_iff_lt_mul h2, Nat.mul_assoc,
    Nat.mul_assoc]

theorem Given.append {A B : List Rng} {y : Nat} : Given cfg (A ++ B) y ↔ Given cfg A y ∨ Given cfg B y := by
  simp [Given, or_and_right, exists_or]

theorem History.reach (hh : History cfg limit w G h) : Heap.Reach cfg limit h := by
  induction hh with
  | init t more reg w a b c => exact .init t more reg w a b c
  | step e _ hp hs ih => exact .step e ih hp hs

theorem History.obtained (hh : History cfg limit w G h) : ∀ t q, Cov (h.ob t) q → Cov G q := by
  induction hh with
  | init => intro t q hq; obtain ⟨_, hm, -⟩ := hq; cases hm
  | step e _ hp hs ih =>
    intro t q hq
    rcases (Heap.step_memory hs t q).1 hq with h1 | ⟨r, h1, h2⟩
    · obtain ⟨r, h2, h3⟩ := ih t q h1
      exact ⟨r, List.mem_append_right _ h2, h3⟩
    · exact ⟨r, List.mem_append_left _ h1, h2⟩

/-- Both bytes of a word are on the same page. -/
theorem word_page (hc : cfg.OK limit) (a : Nat) : (2 * a + 1) / 2 ^ cfg.ps = 2 * a / 2 ^ cfg.ps := by
  have h1 := hc.ps
  have : 2 ^ cfg.ps = 2 * 2 ^ (cfg.ps - 1) := by
    rw [← Nat.pow_succ']; congr 1; omega
  rw [this, ← Nat.div_div_eq_div_mul, ← Nat.div_div_eq_div_mul]
  congr 1; omega

/-- **C82.** Memory that the system did not hand out is never changed: in every history, a word with a byte outside what
was handed out so far has the contents it had before the first call. -/
theorem foreign_untouched (hc : cfg.OK limit) (hh : History cfg limit w G h) {a : Nat}
    (ha : ¬ Given cfg G (2 * a) ∨ ¬ Given cfg G (2 * a + 1)) : h.mem a = w a := by
  replace ha : ¬ Cov G (pg cfg a / cfg.N) := by
    rw [given_iff hc, given_iff hc, word_page hc, or_self] at ha
    exact ha
  induction hh with
  | init => rfl
  | step e h1 hp hs ih =>
    rw [← ih fun ⟨r, g1, g2⟩ => ha ⟨r, List.mem_append_right _ g1, g2⟩]
    apply Classical.byContradiction
    intro hne
    obtain ⟨t, ht⟩ := (h1.reach.inv hc).footprint hc hp hs hne
    exact ha ((h1.step e hp hs).obtained t _ ht)

/-- **C82.** Every byte of every live block is in memory the system handed out. -/
theorem blocks_given (hc : cfg.OK limit) (hh : History cfg limit w G h) {b : Block} (hb : b ∈ h.live cfg) {y : Nat}
    (hy : In b y) : Given cfg G y := by
  obtain ⟨-, x, hx, hp⟩ := (hh.reach.inv hc).inRun hc hb
  rw [given_iff hc]
  exact hh.obtained _ _ ((hh.reach.inv hc).cov hc (o := x.1) (r := x.2) hx (hp y hy.1 hy.2))

/-- **C82.** Only memory the system handed out is given back to it. -/
theorem released_given (hc : cfg.OK limit) (hh : History cfg limit w G h) {t : Nat} {e : PageHeap.Ev} {who : Heap.Owner} {w' : Mem}
    (hp : Heap.Pre cfg h (.page t e who w')) {res : PageHeap.Res} (hs : Heap.step cfg h (.page t e who w') = some (h', .page t res))
    {k : PageHeap.Call} (hk : k ∈ res.calls) {y : Nat} (hy : k.p * 2 ^ cfg.ps ≤ y ∧ y < (k.p + k.n) * 2 ^ cfg.ps) :
    Given cfg (e.sys ++ G) y := by
  have h2 : 0 < 2 ^ cfg.ps := Nat.two_pow_pos _
  rw [given_iff hc]
  simp only [Heap.step] at hs
  obtain ⟨⟨s, r⟩, h1, h3⟩ := Option.map_eq_some_iff.1 hs
  cases h3
  have hin : k.Has (y / 2 ^ cfg.ps) := by
    unfold PageHeap.Call.Has
    rw [Nat.le_div_iff_mul_le h2, Nat.div_lt_iff_lt_mul h2]; exact hy
  obtain ⟨g, g1, g2⟩ := PageHeap.calls_cov hc.N2 hc.H0 ((hh.reach.inv hc).page t) hp.1 h1 hk hin
  rcases List.mem_append.1 g1 with g1 | g1
  · exact ⟨g, List.mem_append_left _ (PageHeap.step_got h1 g g1), g2⟩
  · obtain ⟨r, r1, r2⟩ := hh.obtained t _ ⟨g, g1, g2⟩
    exact ⟨r, List.mem_append_right _ r1, r2⟩

theorem Reach.parts (hr : Reach cfg limit c G p) :
    (∃ w, History cfg limit w G p.heap) ∧ Guarded.Reach c p.g p.objs ∧ ∀ y, Region c y → ¬ Given cfg G y := by
  induction hr with
  | start m hh hd => exact ⟨⟨_, hh⟩, .init m, hd⟩
  | heap e _ hp hd hs ih =>
    obtain ⟨⟨w, h1⟩, h2, h3⟩ := ih
    refine ⟨⟨w, h1.step e hp hs⟩, h2, fun y hy hg => ?_⟩
    rcases Given.append.1 hg with hg | hg
    · exact hd y hy hg
    · exact h3 y hy hg
  | guard e _ hp hs ih => exact ⟨ih.1, ih.2.1.step hp hs, ih.2.2⟩

theorem region_of_placed {o : Guarded.Obj} (hp : Guarded.Placed c o) (hps : 0 < c.ps) :
    Region c o.ptr ∧ ∀ y, In (guardBlock o) y → Region c y := by
  have h1 := hp.lo; have h2 := hp.hi; have h3 := hp.slot
  unfold Guarded.Cfg.page at h1 h2
  have h4 : (2 * o.slot + 1) * c.ps + c.ps ≤ 2 * c.total * c.ps := by
    rw [← Nat.succ_mul]; exact Nat.mul_le_mul_right _ (by omega)
  have h5 : (2 * c.total + 1) * c.ps = 2 * c.total * c.ps + c.ps := Nat.succ_mul _ _
  refine ⟨⟨by omega, by omega⟩, ?_⟩
  rintro y ⟨g1, g2⟩
  simp only [guardBlock] at g1 g2
  exact ⟨by omega, by omega⟩

theorem Guarded.Cfg.OK.pos (h : c.OK) : 0 < c.ps := by
  obtain ⟨k, hk, -⟩ := h.ps
  rw [hk]; exact Nat.two_pow_pos _

/-- **C01**, with guarded allocations: no two blocks that users have share a byte, whether they are objects of a size
class, runs of pages or guarded objects; none is at address 0. -/
theorem blocks_disjoint (hc : cfg.OK limit) (hg : c.OK) (hr : Reach cfg limit c G p) :
    (p.live cfg).Pairwise Block.Apart ∧ ∀ b ∈ p.live cfg, b.addr ≠ 0 := by
  obtain ⟨⟨w, h1⟩, h2, h3⟩ := hr.parts
  obtain ⟨h4, h5⟩ := Heap.live_blocks_disjoint hc h1.reach
  obtain ⟨h6, h7⟩ := Guarded.objects_placed hg h2
  have hps := Guarded.Cfg.OK.pos hg
  unfold Proc.live
  constructor
  · rw [List.pairwise_append]
    refine ⟨h4, List.pairwise_map.2 h7, fun b hb d hd => ?_⟩
    obtain ⟨o, ho, rfl⟩ := List.mem_map.1 hd
    obtain ⟨r1, r2⟩ := region_of_placed (h6 o ho) hps
    have hbs := (h5 b hb).1
    have hno : ∀ y, In b y → ¬ Region c y := fun y hy hy' => h3 y hy' (blocks_given hc h1 hb hy)
    show b.addr + b.size ≤ o.ptr ∨ o.ptr + o.size ≤ b.addr
    rcases Nat.lt_or_ge o.ptr (b.addr + b.size) with g1 | g1
    · right
      rcases Nat.lt_or_ge b.addr (o.ptr + o.size) with g2 | g2
      · exfalso
        rcases Nat.lt_or_ge o.ptr b.addr with g3 | g3
        · exact hno b.addr ⟨Nat.le_refl _, by omega⟩ (r2 b.addr ⟨Nat.le_of_lt g3, g2⟩)
        · exact hno o.ptr ⟨g3, g1⟩ r1
      · exact g2
    · left; exact g1
  · intro b hb
    rcases List.mem_append.1 hb with hb | hb
    · exact (h5 b hb).2
    · obtain ⟨o, ho, rfl⟩ := List.mem_map.1 hb
      have := (h6 o ho).ptr_pos hg
      show o.ptr ≠ 0
      omega

/-- **C01**, frees: the test by which a free finds its allocator (`PointerIsMine`, guarded_page_allocator.h:169-172) tells
guarded objects from all others. -/
theorem free_routed (hc : cfg.OK limit) (hg : c.OK) (hr : Reach cfg limit c G p) :
    (∀ o ∈ p.objs, c.mine o.ptr = true) ∧ ∀ b ∈ p.heap.live cfg, ∀ y, In b y → c.mine y = false := by
  obtain ⟨⟨w, h1⟩, h2, h3⟩ := hr.parts
  have hmine : ∀ y, c.mine y = true ↔ Region c y := fun y => by
    unfold Guarded.Cfg.mine Region Guarded.Cfg.fin; rw [decide_eq_true_iff]
  refine ⟨fun o ho => ?_, fun b hb y hy => ?_⟩
  · exact (hmine _).2 (region_of_placed ((Guarded.objects_placed hg h2).1 o ho) (Guarded.Cfg.OK.pos hg)).1
  · rw [Bool.eq_false_iff]
    intro hm
    exact h3 y ((hmine y).1 hm) (blocks_given hc h1 hb hy)

/-- **C82.** The heap never changes memory of the guarded page allocator. -/
theorem heap_spares_guarded (hc : cfg.OK limit) (hr : Reach cfg limit c G p) {e : Heap.Ev} (hp : Heap.Pre cfg p.heap e)
    (hd : ∀ y, Region c y → ¬ Given cfg e.handed y) {o : Heap.Out} (hs : Heap.step cfg p.heap e = some (h', o)) {a : Nat}
    (ha : Region c (2 * a) ∨ Region c (2 * a + 1)) : h'.mem a = p.heap.mem a := by
  obtain ⟨⟨w, h1⟩, -, h3⟩ := hr.parts
  have hg : ∀ y, Region c y → ¬ Given cfg (e.handed ++ G) y := fun y hy hm => by
    rcases Given.append.1 hm with hm | hm
    · exact hd y hy hm
    · exact h3 y hy hm
  rw [foreign_untouched hc (h1.step e hp hs) (ha.imp (hg _) (hg _)), foreign_untouched hc h1 (ha.imp (h3 _) (h3 _))]

theorem slot_region (hg : c.OK) {slot page y : Nat} (hs : c.slotAddr slot = some page) (h1 : page ≤ y) (h2 : y < page + c.ps) : Region c y := by
  have hps := Guarded.Cfg.OK.pos hg
  unfold Guarded.Cfg.slotAddr at hs
  split at hs
  · next hlt =>
    cases hs
    have hf : c.first = c.base + c.ps := by
      unfold Guarded.Cfg.first
      rw [Nat.div_mul_cancel]
      exact Nat.dvd_of_mod_eq_zero (by rw [Nat.add_mod_right]; exact hg.base)
    rw [hf] at h1 h2
    have h4 : 2 * slot * c.ps + 2 * c.ps ≤ 2 * c.total * c.ps := by
      rw [← Nat.add_mul]; exact Nat.mul_le_mul_right _ (by omega)
    have h5 : (2 * c.total + 1) * c.ps = 2 * c.total * c.ps + c.ps := Nat.succ_mul _ _
    exact ⟨by omega, by omega⟩
  · cases hs

/-- **C82.** The guarded page allocator changes memory of its own region only, whether a call succeeds or not. -/
theorem guarded_spares_others (hg : c.OK) {s s' : Guarded.S} {L : List Guarded.Obj} (hr : Guarded.Reach c s L) {e : Guarded.Ev}
    (hp : Guarded.Pre c s L e) {o : Guarded.Out} (hs : Guarded.step c s e = some (s', o)) {y : Nat} (hy : ¬ Region c y) :
    s'.mem y = s.mem y := by
  have hps := Guarded.Cfg.OK.pos hg
  have free : ∀ {s0 s1 : Guarded.S} {slot}, Guarded.freeSlot c s0 slot = some s1 → s1.mem = s0.mem := by
    intro s0 s1 slot hf
    unfold Guarded.freeSlot at hf
    split at hf
    · split at hf
      · cases hf; rfl
      · cases hf
    · cases hf
  cases e with
  | reserve size al r =>
    simp only [Guarded.step] at hs
    obtain ⟨⟨s1, x⟩, h1, h2⟩ := Option.map_eq_some_iff.1 hs
    cases h2
    unfold Guarded.reserve at h1
    split at h1
    · cases h1
    · split at h1
      · cases h1; rfl
      · split at h1
        · cases h1
        · split at h1
          · cases h1; rfl
          · cases h1
  | allocate i ok =>
    simp only [Guarded.step, Guarded.allocate] at hs
    split at hs
    · cases hs
    · next slot size al hi =>
      split at hs
      · next hsz =>
        split at hs
        · cases hs
        · next page hpg =>
          split at hs
          · split at hs
            · cases hs
            · split at hs
              · cases hs; rfl
              · cases hs
          · next h0 =>
            split at hs
            · split at hs
              · cases hs
              · split at hs
                · cases hs
                  show Guarded.fill s.mem _ _ _ y = s.mem y
                  unfold Guarded.fill
                  rw [if_neg]
                  rintro ⟨g1, g2⟩
                  refine hy (slot_region hg hpg ?_ ?_)
                  · unfold Guarded.rightAlign at g1 g2
                    split at g1
                    · have ha : 0 < Guarded.effAlign size al ∧ Guarded.effAlign size al ≤ c.ps := by
                        obtain ⟨k, hk, hk4⟩ := hg.ps
                        have h16 : 16 ≤ c.ps := by rw [hk]; exact Nat.pow_le_pow_right (n := 2) (by omega) hk4
                        have hb : 0 < Guarded.bitCeil size := by
                          unfold Guarded.bitCeil; split
                          · omega
                          · exact Nat.two_pow_pos _
                        unfold Guarded.effAlign Guarded.newAlign
                        omega
                      have := Nat.mod_lt (page + c.ps - size) ha.1
                      simp only at g1
                      omega
                    · simp only at g1; omega
                  · unfold Guarded.rightAlign at g1 g2
                    split at g2
                    · have := Nat.mod_le (page + c.ps - size) (Guarded.effAlign size al)
                      simp only at g2
                      omega
                    · simp only at g2; omega
                · cases hs
            · split at hs
              · cases hs
              · next s2 hf => cases hs; rw [free hf]
      · cases hs
  | dealloc q =>
    simp only [Guarded.step, Guarded.dealloc] at hs
    split at hs
    · split at hs
      · cases hs
      · split at hs <;> (cases hs; rfl)
    · cases hs
  | protect i =>
    simp only [Guarded.step, Guarded.protect] at hs
    split at hs
    · cases hs
    · split at hs
      · cases hs
      · split at hs
        · cases hs; rfl
        · split at hs <;> (cases hs; rfl)
  | giveBack i =>
    simp only [Guarded.step, Guarded.giveBack] at hs
    split at hs
    · cases hs
    · split at hs
      · cases hs
      · next s1 hf => cases hs; rw [free hf]
  | store a b =>
    obtain ⟨ob, ho, h1, h2⟩ := hp
    simp only [Guarded.step, Guarded.store] at hs
    split at hs
    · cases hs
      show Guarded.upd s.mem a b y = s.mem y
      unfold Guarded.upd
      rw [if_neg]
      rintro rfl
      exact hy ((region_of_placed ((Guarded.objects_placed hg hr).1 ob ho) hps).2 y ⟨h1, h2⟩)
    · cases hs; rfl

end Verif.Process
