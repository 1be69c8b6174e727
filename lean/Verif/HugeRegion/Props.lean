import Verif.HugeRegion.Set
/-! The properties of the set of hugepage regions (C20, and its part of C13). -/
namespace Verif.HugeRegion
open Verif.Bitmap Verif.RangeTracker
open Verif.PageTracker (Call okSum)

variable {H N : Nat}

theorem bits_eq {t : RT} {L : List (Nat × Nat)} {P : Nat} (h : Good P t L) : bitAt t.bits = usedBy L := by
  funext p
  rw [Bool.eq_iff_iff, h.used p]
  unfold usedBy
  simp only [List.any_eq_true, decide_eq_true_eq]

/-- Some page of hugepage `x` is used exactly when the use count is not 0. -/
theorem used_zero {r : R} {L : List (Nat × Nat)} (hN : 0 < N) (k : K H N r L) {x : Nat} (hx : x < H) :
    r.used x = 0 ↔ ∀ p, p / N = x → usedBy L p = false := by
  rw [k.u.used x hx, bits_eq k.good]
  constructor
  · intro h p hp
    have hb := block hN p
    rw [hp] at hb
    cases hu : usedBy L p with
    | false => rfl
    | true =>
      have := (cnt_pos_iff (f := usedBy L) (a := x * N) (n := N)).2 ⟨p, hb.1, hb.2, hu⟩
      omega
  · intro h
    apply Classical.byContradiction; intro hc
    obtain ⟨j, j1, j2, j3⟩ := (cnt_pos_iff (f := usedBy L) (a := x * N) (n := N)).1 (by omega)
    rw [h j (block_div hN j1 j2)] at j3
    cases j3

/-- **C20.**  In every region the live runs are inside and disjoint; every page count, the number of backed hugepages and
of backed empty hugepages are those of the live runs; a hugepage holds memory exactly if a run handed out touched it and
no successful unback came after; every page of a live run is on such a hugepage. -/
theorem region_exact (hN : 0 < N) {s : S} {g : Gh} (h : Reach H N s g) {id : Nat} (hid : id ∈ s.ids) :
    (∀ r ∈ g.live id, 0 < r.2 ∧ r.1 + r.2 ≤ H * N) ∧ (g.live id).Pairwise Disjoint ∧
    (s.reg id).trk.nused = ((g.live id).map Prod.snd).sum ∧ (s.reg id).trk.nallocs = (g.live id).length ∧
    LongestFree (usedBy (g.live id)) (H * N) (s.reg id).trk.longestFree ∧
    (∀ x, x < H → (s.reg id).used x = (List.range' (x * N) N).countP (usedBy (g.live id))) ∧
    (∀ x, x < H → ((s.reg id).backed x = true ↔ g.mem id x)) ∧
    (∀ p, usedBy (g.live id) p = true → g.mem id (p / N)) ∧
    (s.reg id).nbacked = (List.range H).countP (s.reg id).backed ∧
    (s.reg id).freeBacked = (List.range H).countP (fun x => (s.reg id).backed x && (s.reg id).used x == 0) := by
  have ks := h.ks hN
  have k := ks.reg id hid
  refine ⟨k.good.inside, k.good.disjoint, k.good.nused, k.good.nallocs, ?_, ?_, ks.mem id hid, ?_, ?_, ?_⟩
  · rw [← bits_eq k.good]; exact k.good.exact.longest
  · intro x hx; rw [k.u.used x hx, bits_eq k.good]; rfl
  · intro p hp
    rw [← bits_eq k.good] at hp
    obtain ⟨r, hr, h1, h2⟩ := (k.good.used p).1 hp
    have hin := k.good.inside r hr
    have hx : p / N < H := by rw [Nat.div_lt_iff_lt_mul hN]; omega
    refine (ks.mem id hid _ hx).1 (k.u.bk _ hx ?_)
    rw [Nat.pos_iff_ne_zero, Ne, used_zero hN k hx]
    intro hc
    rw [bits_eq k.good, hc p rfl] at hp
    cases hp
  · rw [cnt_range]; exact k.u.nb
  · rw [cnt_range]; exact k.u.fb

/-- **C20.**  Live runs of different regions have no page in common, as addresses. -/
theorem regions_disjoint (hN : 0 < N) {s : S} {g : Gh} (h : Reach H N s g) {a b : Nat} (ha : a ∈ s.ids) (hb : b ∈ s.ids)
    (hab : a ≠ b) {p q : Nat} (hp : usedBy (g.live a) p = true) (hq : usedBy (g.live b) q = true) :
    (s.reg a).loc * N + p ≠ (s.reg b).loc * N + q := by
  have ks := h.ks hN
  have inside : ∀ {id x}, id ∈ s.ids → usedBy (g.live id) x = true → x < H * N := by
    intro id x hid hx
    have k := ks.reg id hid
    rw [← bits_eq k.good] at hx
    obtain ⟨r, hr, h1, h2⟩ := (k.good.used x).1 hx
    have := k.good.inside r hr; omega
  have h1 := inside ha hp
  have h2 := inside hb hq
  intro e
  rcases ks.apart a ha b hb hab with h | h
  · have := Nat.mul_le_mul_right N h
    rw [Nat.add_mul] at this; omega
  · have := Nat.mul_le_mul_right N h
    rw [Nat.add_mul] at this; omega

/-- **C20.**  The totals of the set: number of regions, backed empty hugepages, its low-water mark, the order by longest
free run, and the statistics: every page of every region is used, free on a backed hugepage or unmapped. -/
theorem set_exact (hN : 0 < N) {s : S} {g : Gh} (h : Reach H N s g) :
    s.ids.Nodup ∧ s.n = s.ids.length ∧ s.freeBacked = (s.ids.map fun id => (s.reg id).freeBacked).sum ∧
    s.lowater ≤ s.freeBacked ∧
    s.ids.Pairwise (fun a b => ∀ n, (∃ i, Free (usedBy (g.live a)) (H * N) i n) → ∃ i, Free (usedBy (g.live b)) (H * N) i n) ∧
    ∃ st, S.stats H N s = some st ∧ st.system = s.n * (H * N) ∧
      st.free = (s.ids.map fun id => (List.range (H * N)).countP
        fun p => !usedBy (g.live id) p && (s.reg id).backed (p / N)).sum ∧
      st.unmapped = (s.ids.map fun id => (List.range (H * N)).countP
        fun p => !usedBy (g.live id) p && !(s.reg id).backed (p / N)).sum ∧
      st.free + st.unmapped + (s.ids.map fun id => ((g.live id).map Prod.snd).sum).sum = st.system := by
  have ks := h.ks hN
  refine ⟨ks.nodup, ks.n, ks.fb, ks.low, ?_, ?_⟩
  · refine List.Pairwise.imp_of_mem ?_ ks.sorted
    intro a b ha hb hab n hn
    have h1 := (ks.reg a ha).good.exact.longest
    have h2 := (ks.reg b hb).good.exact.longest
    rw [bits_eq (ks.reg a ha).good] at h1
    rw [bits_eq (ks.reg b hb).good] at h2
    exact (h2 n).2 (Nat.le_trans ((h1 n).1 hn) hab)
  · unfold S.stats
    rw [ks.n]
    suffices hs : ∀ l : List Nat, (∀ id ∈ l, id ∈ s.ids) → ∃ st, statsLoop H N s l = some st ∧ st.system = l.length * (H * N) ∧
      st.free = (l.map fun id => (List.range (H * N)).countP
        fun p => !usedBy (g.live id) p && (s.reg id).backed (p / N)).sum ∧
      st.unmapped = (l.map fun id => (List.range (H * N)).countP
        fun p => !usedBy (g.live id) p && !(s.reg id).backed (p / N)).sum ∧
      st.free + st.unmapped + (l.map fun id => ((g.live id).map Prod.snd).sum).sum = st.system from hs s.ids (fun _ h => h)
    intro l
    induction l with
    | nil => intro _; exact ⟨⟨0, 0, 0⟩, rfl, by simp, by simp, by simp, by simp⟩
    | cons id l ih =>
      intro hsub
      have k := ks.reg id (hsub id (by simp))
      obtain ⟨st, e, i1, i2, i3, i4⟩ := ih (fun j hj => hsub j (by simp [hj]))
      obtain ⟨u, f, -⟩ := stats_spec hN k
      have e1 : (List.range (H * N)).countP (fun p => !usedBy (g.live id) p && (s.reg id).backed (p / N)) =
          cnt (freeOn N (s.reg id) false) 0 (H * N) := by
        rw [cnt_range, ← bits_eq k.good]
        exact cnt_congr (fun p _ _ => by unfold freeOn; cases (s.reg id).backed (p / N) <;> simp)
      have e2 : (List.range (H * N)).countP (fun p => !usedBy (g.live id) p && !(s.reg id).backed (p / N)) =
          cnt (freeOn N (s.reg id) true) 0 (H * N) := by
        rw [cnt_range, ← bits_eq k.good]
        exact cnt_congr (fun p _ _ => by unfold freeOn; cases (s.reg id).backed (p / N) <;> simp)
      obtain ⟨t1, t2⟩ := totals hN k
      refine ⟨⟨H * N + st.system, cnt (freeOn N (s.reg id) false) 0 (H * N) + st.free,
        cnt (freeOn N (s.reg id) true) 0 (H * N) + st.unmapped⟩, ?_, ?_, ?_, ?_, ?_⟩
      · unfold statsLoop R.stats
        rw [u, f, e]; rfl
      · simp only [List.length_cons]; rw [i1, Nat.succ_mul]; omega
      · simp only [List.map_cons, List.sum_cons]; rw [e1, i2]
      · simp only [List.map_cons, List.sum_cons]; rw [e2, i3]
      · simp only [List.map_cons, List.sum_cons]
        rw [← k.good.nused]; omega

/-- **C20.**  A request for `n` pages is refused exactly when no region has `n` free pages in a row (and then nothing
changes).  Otherwise it is served by a region whose longest free run is the smallest that fits, by best fit within it; the
caller is told that the run may need backing exactly if it touches a hugepage that holds no memory. -/
theorem get_exact (hN : 0 < N) {s : S} {g : Gh} (h : Reach H N s g) {n : Nat} (hn : 0 < n) :
    ((∀ id ∈ s.ids, ¬ ∃ i, Free (usedBy (g.live id)) (H * N) i n) ∧ S.maybeGet H N s n = some (s, none)) ∨
    ∃ s' id i len rel, S.maybeGet H N s n = some (s', some (id, (s.reg id).loc * N + i, rel)) ∧ id ∈ s.ids ∧
      BestFit (usedBy (g.live id)) (H * N) n i len ∧
      (∀ j ∈ s.ids, (∃ i', Free (usedBy (g.live j)) (H * N) i' n) →
        ∀ m, (∃ i', Free (usedBy (g.live id)) (H * N) i' m) → ∃ i', Free (usedBy (g.live j)) (H * N) i' m) ∧
      (rel = true ↔ ∃ x, Touch N i n x ∧ ¬ g.mem id x) ∧
      Reach H N s' ⟨upd g.live id ((i, n) :: g.live id), upd g.mem id fun x => g.mem id x ∨ Touch N i n x⟩ ∧ Shape s s' := by
  have ks := h.ks hN
  have hlf : ∀ j ∈ s.ids, ∀ m, (∃ i, Free (usedBy (g.live j)) (H * N) i m) ↔ m ≤ s.lf j := by
    intro j hj m
    have := (ks.reg j hj).good.exact.longest m
    rw [bits_eq (ks.reg j hj).good] at this
    exact this
  rcases getLoop_spec hN ks hn s.ids (fun _ h => h) with ⟨e, hf⟩ | ⟨A, id, B, s', i, rel, len, e1, e2, e3, e, bf, hrel, hshape, k'⟩
  · refine Or.inl ⟨?_, e⟩
    intro id hid hc
    have := (hlf id hid n).1 hc
    have := hf id hid
    omega
  · have hid : id ∈ s.ids := by rw [e1]; simp
    refine Or.inr ⟨s', id, i, len, rel, e, hid, ?_, ?_, ?_, Reach.get n id i rel h e, hshape⟩
    · rw [← bits_eq (ks.reg id hid).good]; exact bf
    · intro j hj hfj m hm
      have h1 := (hlf j hj n).1 hfj
      have h2 := (hlf id hid m).1 hm
      refine (hlf j hj m).2 (Nat.le_trans h2 ?_)
      rw [e1] at hj
      rcases List.mem_append.1 hj with hj | hj
      · have := e2 j hj; omega
      · rcases List.mem_cons.1 hj with hj | hj
        · rw [hj]; exact Nat.le_refl _
        · have hp := ks.sorted
          rw [e1, List.pairwise_append, List.pairwise_cons] at hp
          exact hp.2.1.1 j hj
    · rw [hrel]
      have hin : ∀ x, Touch N i n x → x < H := by
        rintro x ⟨j, j1, j2, j3⟩
        have h1 := bf.run.free.1
        have h2 := bf.fits
        rw [← j3, Nat.div_lt_iff_lt_mul hN]; omega
      constructor
      · rintro ⟨x, h1, h2⟩
        exact ⟨x, h1, fun hm => by rw [(ks.mem id hid x (hin x h1)).2 hm] at h2; cases h2⟩
      · rintro ⟨x, h1, h2⟩
        refine ⟨x, h1, ?_⟩
        cases hb : (s.reg id).backed x with
        | false => rfl
        | true => exact absurd ((ks.mem id hid x (hin x h1)).1 hb) h2

/-- **C20, C13.**  A live run can be returned; the region it came from is found.  If regions keep their memory, nothing is
unbacked.  Otherwise the kernel is asked exactly for the hugepages the run touched on which no live run is left, in maximal
ranges; in particular no call touches a page of a live run. -/
theorem put_exact (hN : 0 < N) {s : S} {g : Gh} (h : Reach H N s g) {id i n : Nat} (hid : id ∈ s.ids)
    (hm : (i, n) ∈ g.live id) (ok : Nat → Bool) :
    ∃ s' calls, S.maybePut H N s ((s.reg id).loc * N + i) n ok = some (s', some (id, calls)) ∧
      Reach H N s' ⟨upd g.live id ((g.live id).erase (i, n)),
        upd g.mem id fun x => g.mem id x ∧ ¬ ∃ c ∈ calls, c.ok = true ∧ c.Has x⟩ ∧
      (∀ c ∈ calls, 0 < c.n ∧ c.i + c.n ≤ H) ∧ calls.Pairwise (fun c d => c.i + c.n < d.i) ∧
      (∀ x, (∃ c ∈ calls, c.Has x) ↔ s.more = false ∧ Touch N i n x ∧
        ∀ p, p / N = x → usedBy ((g.live id).erase (i, n)) p = false) ∧ Shape s s' := by
  have ks := h.ks hN
  obtain ⟨s', calls, sh, e, c1, c2, hsh, hperm, k'⟩ := maybePut_spec hN ks hid hm ok
  have kr : K H N (s'.reg id) ((g.live id).erase (i, n)) := by
    have := k'.reg id (hperm.1.mem_iff.2 hid)
    simpa only [upd_same] using this
  have hin := (ks.reg id hid).good.inside _ hm
  simp only [] at hin
  have htouch : ∀ x, Touch N i n x → x < H := by
    rintro x ⟨j, j1, j2, j3⟩
    rw [← j3, Nat.div_lt_iff_lt_mul hN]; omega
  refine ⟨s', calls, e, Reach.put id i n ok calls h hid hm e, ?_, ?_, ?_, hperm⟩
  · intro c hc
    cases hmore : s.more with
    | true => rw [c1 hmore] at hc; simp at hc
    | false => exact ⟨((c2 hmore).inside c hc).2.1, ((c2 hmore).inside c hc).2.2.1⟩
  · cases hmore : s.more with
    | true => rw [c1 hmore]; exact List.Pairwise.nil
    | false => exact (c2 hmore).sorted
  · intro x
    cases hmore : s.more with
    | true => rw [c1 hmore]; simp
    | false =>
      have hC := c2 hmore
      have hiff : sh x = true ↔ Touch N i n x ∧ ∀ p, p / N = x → usedBy ((g.live id).erase (i, n)) p = false := by
        rw [hsh]
        constructor
        · rintro ⟨h1, h2⟩
          exact ⟨h1, (used_zero hN kr (htouch x h1)).1 h2⟩
        · rintro ⟨h1, h2⟩
          exact ⟨h1, (used_zero hN kr (htouch x h1)).2 h2⟩
      constructor
      · rintro ⟨c, hc, hx⟩
        exact ⟨rfl, hiff.1 ((hC.inside c hc).2.2.2 x hx)⟩
      · rintro ⟨-, h2⟩
        exact hC.all x (by omega) (htouch x h2.1) (hiff.2 h2)

/-- **C20.**  A page in none of the regions is left to the caller. -/
theorem put_other (hN : 0 < N) {s : S} (p n : Nat) (ok : Nat → Bool)
    (hp : ∀ id ∈ s.ids, ¬ ((s.reg id).loc * N ≤ p ∧ p < ((s.reg id).loc + H) * N)) :
    S.maybePut H N s p n ok = some (s, none) := by
  unfold S.maybePut
  have : s.ids.find? (fun j => (s.reg j).contains H N p) = none := by
    rw [List.find?_eq_none]
    intro j hj
    rw [contains_iff hN]
    exact hp j hj
  rw [this]

/-- The number of pages aimed at: what was asked for when the limit is hit; otherwise the low-water mark of backed empty
hugepages, or a fraction of them. -/
def aim (N : Nat) (s : S) (desired : Nat) (adaptive hitLimit : Bool) (frac : Nat) : Nat :=
  if hitLimit then desired else if adaptive then s.lowater * N else frac

/-- **C20, C13.**  `ReleasePages` only asks for hugepages that hold memory and on which no run is live; it reports exactly
the pages of the calls that succeeded; it never releases more than the aim, rounded up to hugepages, and if no call fails
it releases that, or all there is. -/
theorem releasePages_exact (hN : 0 < N) {s : S} {g : Gh} (h : Reach H N s g) (desired : Nat) (adaptive hitLimit : Bool)
    (frac : Nat) (ok : Nat → Nat → Bool) :
    ∃ s' released log, S.releasePages H N s desired adaptive hitLimit frac ok = some (s', released, log) ∧
      Reach H N s' ⟨g.live, fun id x => g.mem id x ∧ ¬ InLog log id x⟩ ∧
      (∀ x ∈ log, x.1 ∈ s.ids ∧ 0 < x.2.n ∧ x.2.i + x.2.n ≤ H ∧
        ∀ y, x.2.Has y → g.mem x.1 y ∧ ∀ p, p / N = y → usedBy (g.live x.1) p = false) ∧
      released = okSum (log.map Prod.snd) * N ∧
      released < aim N s desired adaptive hitLimit frac + N ∧
      ((∀ x ∈ log, x.2.ok = true) →
        aim N s desired adaptive hitLimit frac ≤ released ∨ (released = s.freeBacked * N ∧ s'.freeBacked = 0)) ∧
      s'.freeBacked * N + released = s.freeBacked * N ∧ s'.lowater = s'.freeBacked ∧ Shape s s' := by
  have ks := h.ks hN
  obtain ⟨s', log, e, k', hids, hlog, hle, hall, hfb, hlo⟩ := releasePages_spec hN ks desired adaptive hitLimit frac ok
  have e0 : target N s desired adaptive hitLimit frac = aim N s desired adaptive hitLimit frac := rfl
  rw [e0] at hle hall
  have hc : ∀ T, hlFromPages N T * N < T + N ∧ T ≤ hlFromPages N T * N := by
    intro T
    unfold hlFromPages
    have h1 := Nat.div_add_mod T N
    have h2 := Nat.mod_lt T hN
    rw [Nat.mul_comm] at h1
    by_cases hz : T % N = 0
    · rw [if_neg (by simp [hz]), Nat.add_zero]; omega
    · rw [if_pos hz, Nat.add_mul]; omega
  refine ⟨s', logOk log * N, log, e, Reach.release desired adaptive hitLimit frac ok _ log h e, ?_, rfl, ?_, ?_, ?_, hlo, hids⟩
  · intro x hx
    obtain ⟨h1, h2, h3, h4⟩ := hlog x hx
    refine ⟨h1, h2, h3, ?_⟩
    intro y hy
    have hyH : y < H := by have := hy.2; omega
    have h5 := h4 y hy
    unfold R.empty at h5
    rw [Bool.and_eq_true, beq_iff_eq] at h5
    exact ⟨(ks.mem x.1 h1 y hyH).1 h5.1, (used_zero hN (ks.reg x.1 h1) hyH).1 h5.2⟩
  · have h1 := (hc (aim N s desired adaptive hitLimit frac)).1
    have h2 := Nat.mul_le_mul_right N hle
    omega
  · intro hok
    have h1 := hall hok
    have h2 := (hc (aim N s desired adaptive hitLimit frac)).2
    rcases Nat.le_total (hlFromPages N (aim N s desired adaptive hitLimit frac)) s.freeBacked with h3 | h3
    · left; rw [h1, Nat.min_eq_left h3]; exact h2
    · right; rw [h1, Nat.min_eq_right h3]
      rw [h1, Nat.min_eq_right h3] at hfb
      exact ⟨rfl, by omega⟩
  · rw [← Nat.add_mul, hfb]

/-- **C20.**  Span statistics of a region: every free page is in exactly one reported run, each run is free and wholly on
backed or wholly on unbacked hugepages and is as long as possible. -/
theorem spanStats_exact (hN : 0 < N) {s : S} {g : Gh} (h : Reach H N s g) {id : Nat} (hid : id ∈ s.ids) :
    ∃ runs, addSpanStats H N (s.reg id) = some runs ∧
      (∀ x ∈ runs, 0 < x.2.1 ∧ x.1 + x.2.1 ≤ H * N ∧ ∀ p, x.1 ≤ p → p < x.1 + x.2.1 →
        usedBy (g.live id) p = false ∧ (x.2.2 = true ↔ ¬ g.mem id (p / N))) ∧
      (∀ p, p < H * N → usedBy (g.live id) p = false → ∃ x ∈ runs, x.1 ≤ p ∧ p < x.1 + x.2.1) ∧
      runs.Pairwise (fun x y => x.1 + x.2.1 ≤ y.1) ∧ runs.Pairwise (fun x y => x.1 + x.2.1 = y.1 → x.2.2 ≠ y.2.2) := by
  have ks := h.ks hN
  have k := ks.reg id hid
  obtain ⟨-, -, runs, e, hr⟩ := stats_spec hN k
  refine ⟨runs, e, ?_, ?_, hr.sorted, hr.maximal⟩
  · intro x hx
    obtain ⟨-, h1, h2, h3⟩ := hr.inside x hx
    refine ⟨h1, h2, ?_⟩
    intro p hp1 hp2
    have hpH : p / N < H := by rw [Nat.div_lt_iff_lt_mul hN]; omega
    obtain ⟨h4, h5⟩ := h3 p hp1 hp2
    rw [bits_eq k.good] at h4
    refine ⟨h4, ?_⟩
    rw [← ks.mem id hid _ hpH, h5]
    cases x.2.2 <;> simp
  · intro p hp hu
    exact hr.all p (by omega) hp (by rw [bits_eq k.good]; exact hu)

/-! ### A concrete history

Two regions of 3 hugepages of 4 pages at hugepages 10 and 20.  Runs of 5 and 4 pages are taken from region 7 and one of 6
from region 8 (by then only it has the room), the first is returned, and memory is released. -/

def demo : Option (S × List (Option (Nat × Nat × Bool)) × List Call × Nat × Log) := do
  let s := (S.init false (fun _ => R.new 3 4 0)).contribute 7 (R.new 3 4 10)
  let s := s.contribute 8 (R.new 3 4 20)
  let (s, a) ← S.maybeGet 3 4 s 5
  let (s, b) ← S.maybeGet 3 4 s 4
  let (s, c) ← S.maybeGet 3 4 s 6
  let (s, d) ← S.maybeGet 3 4 s 12
  let (s, p) ← S.maybePut 3 4 s 40 5 (fun _ => false)
  let (s, r, log) ← S.releasePages 3 4 s 1 true true 0 (fun _ _ => true)
  some (s, [a, b, c, d], (p.map Prod.snd).getD [], r, log)

example : demo.map (fun x => x.2.1) = some [some (7, 40, true), some (7, 45, true), some (8, 80, true), none] := by
  decide +kernel
example : demo.map (fun x => x.2.2.1.map (fun c => (c.i, c.n, c.ok))) = some [(0, 1, false)] := by decide +kernel
example : demo.map (fun x => x.2.2.2.1) = some 4 := by decide +kernel
example : demo.map (fun x => x.2.2.2.2.map (fun y => (y.1, y.2.i, y.2.n, y.2.ok))) = some [(7, 0, 1, true)] := by
  decide +kernel

/-- The hypotheses of the theorems are met: a reachable set with a live run, and the run can be returned. -/
example : ∃ s g, Reach 3 4 s g ∧ 7 ∈ s.ids ∧ (0, 5) ∈ g.live 7 ∧ g.mem 7 1 ∧
    ∃ s' calls, S.maybePut 3 4 s 40 5 (fun _ => true) = some (s', some (7, calls)) ∧ ∃ c ∈ calls, c.Has 1 := by
  have r1 : Reach 3 4 _ _ := Reach.contribute 7 10 (Reach.init false fun _ => R.new 3 4 0) (by decide) (by decide)
  have e : (S.maybeGet 3 4 ((S.init false fun _ => R.new 3 4 0).contribute 7 (R.new 3 4 10)) 5).map
      (fun x => (x.2, x.1.ids, x.1.reg 7 |>.loc, x.1.more)) = some (some (7, 40, true), [7], 10, false) := by decide +kernel
  rw [Option.map_eq_some_iff] at e
  obtain ⟨⟨s', res⟩, e1, e2⟩ := e
  simp only [Prod.mk.injEq] at e2
  obtain ⟨rfl, hids, hloc, hmore⟩ := e2
  have r2 := Reach.get 5 7 0 true r1 e1
  have hid : 7 ∈ s'.ids := by rw [hids]; simp
  refine ⟨s', _, r2, hid, by simp [upd_same], by simp only [upd_same]; exact Or.inr ⟨4, by omega, by omega, rfl⟩, ?_⟩
  obtain ⟨s2, calls, e3, -, -, -, h, -⟩ := put_exact (by omega) r2 hid (i := 0) (n := 5) (by simp [upd_same]) (fun _ => true)
  rw [hloc] at e3
  exact ⟨s2, calls, e3, (h 1).2 ⟨hmore, ⟨4, by omega, by omega, rfl⟩, by simp [upd_same, Gh.init, usedBy]⟩⟩

end Verif.HugeRegion
