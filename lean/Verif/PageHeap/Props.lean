import Verif.PageHeap.Count
/-! The properties of the page heap: C21, C22, C13. -/
namespace Verif.PageHeap
open Verif.HugeAddressMap Verif.HugeAllocator
open Verif.PageTracker (Alloc PT)
open Verif.HugeRegion (hlFromPages)

variable {H N : Nat} {mode : Bool} {s : HP} {ob : List Rng} {L : List Run}

theorem K.mem_run {ow : PSet} {u : Nat} {fg : Filler.Gh} {rg : HugeRegion.Gh} {runs : List X}
    (k : K H N mode s ob L [] [] [] ow u fg rg runs) {r : Run} (hr : r ∈ L) : ∃ x ∈ runs, x.1 = r := by
  have := k.perm.mem_iff.2 hr
  obtain ⟨x, hx, e⟩ := List.mem_map.1 this
  exact ⟨x, hx, e⟩

/-! ### C21 -/

/-- C21: at every moment of every history, the runs in use are not empty, lie in memory obtained from the system and
share no page. -/
theorem runs_disjoint (hN : 2 ≤ N) (hH : 0 < H) (h : Reach H N mode s ob L) :
    L.Pairwise (fun r t => ∀ p, r.Has p → ¬ t.Has p) ∧ (∀ r ∈ L, 0 < r.n ∧ ∀ p, r.Has p → Cov ob (p / N)) ∧
    Disj ob := by
  obtain ⟨ow, u, fg, rg, runs, k⟩ := h.k hN hH
  refine ⟨?_, ?_, k.cache.K.j.disj⟩
  · refine k.perm.pairwise (R := fun r t : Run => ∀ p, r.Has p → ¬ t.Has p) ?_ (fun {a b} h p h1 h2 => h p h2 h1)
    rw [List.pairwise_map, List.pairwise_iff_forall_sublist]
    intro x y hs p h1 h2
    exact k.apart hN hs h1 h2
  · intro r hr
    obtain ⟨x, hx, rfl⟩ := k.mem_run hr
    refine ⟨?_, fun p hp => ?_⟩
    · have hv := k.valid x hx
      obtain ⟨r, kd⟩ := x
      cases kd with
      | fill id a =>
        have := (k.inFiller hN hx (id := id) (a := a) (by simp [fpart])).2.2.1
        have := hv.2.1
        simp only [] at *; omega
      | region id i =>
        have := (k.inRegion (by omega) hx (id := id) (a := (i, r.n)) hv.1 (by simp [rpart])).2.1
        exact this
      | whole hp hl => simp only []; rw [hv.2.2.1]; exact Nat.mul_pos hv.1 (by omega)
      | tail hp hl id a =>
        simp only []; rw [hv.2.2.2.2.2.1]
        have := Nat.mul_pos hv.1 (show 0 < N by omega)
        omega
    · exact (k.cache.K.j.part _).2 (Or.inr (Or.inr (Or.inr ((k.at hN hx hp).inside k hN hx))))

/-- C21: whatever callers do within the rules, no check of the page heap fails. -/
theorem step_defined (hN : 2 ≤ N) (hH : 0 < H) (h : Reach H N mode s ob L) (e : Ev) (he : e.Pre H N ob L s) :
    ∃ s' res, s.step H N mode e = some (s', res) ∧ Reach H N mode s' (res.got ++ ob) (live' L e res.out) := by
  obtain ⟨ow, u, fg, rg, runs, k⟩ := h.k hN hH
  obtain ⟨s', res, e1, -⟩ := k.step hN hH e he
  exact ⟨s', res, e1, h.step e he e1⟩

/-- C21: a request for `n` pages fails, waits for the usage limit, or gets exactly `n` pages, of memory obtained from the
system, none of them in use. -/
theorem new_exact (hN : 2 ≤ N) (hH : 0 < H) (h : Reach H N mode s ob L) {n : Nat} (hn : 0 < n) (objs : Nat) {dense : Bool}
    (hden : dense = true → n = 1) (useRegion fr : Bool) {sys1 sys2 : Option Rng} (hs1 : SysOK ob H sys1)
    (hs2 : SysOK ob (hlFromPages N n) sys2) (a b : Nat) :
    ∃ s' res, s.step H N mode (.new n objs dense useRegion fr sys1 sys2 a b) = some (s', res) ∧
      (res.out = .fail ∨ res.out = .waiting ∨ ∃ r b, res.out = .run r b ∧ r.n = n ∧ r.objs = objs ∧
        ∀ p, r.Has p → Cov (res.got ++ ob) (p / N) ∧ ∀ t ∈ L, ¬ t.Has p) := by
  obtain ⟨ow, u, fg, rg, runs, k⟩ := h.k hN hH
  obtain ⟨s', res, e, -, ho, -⟩ := k.newOp hN hH hn objs hden useRegion fr hs1 hs2 a b
  have h' := h.step (.new n objs dense useRegion fr sys1 sys2 a b) ⟨hn, hden, hs1, hs2⟩ e
  refine ⟨s', res, e, ?_⟩
  rcases ho with ho | ho | ⟨p, d, fr', ho, -⟩
  · exact Or.inl ho
  · exact Or.inr (Or.inl ho)
  · refine Or.inr (Or.inr ⟨_, _, ho, rfl, rfl, fun q hq => ?_⟩)
    obtain ⟨h1, h2, -⟩ := runs_disjoint hN hH h'
    rw [ho] at h1 h2
    simp only [live', List.pairwise_cons] at h1 h2
    exact ⟨(h2 _ List.mem_cons_self).2 q hq, fun t ht => h1.1 t ht q hq⟩

/-- C21: the same for an aligned request, and an alignment of more than one page is met (it is at most a hugepage, and
every power of two up to that divides `N` pages). -/
theorem newAligned_exact (hN : 2 ≤ N) (hH : 0 < H) (h : Reach H N mode s ob L) {n align : Nat} (hn : 0 < n) (hal : align ≤ N)
    (hdiv : align ∣ N) (objs : Nat) {dense : Bool}
    (hden : dense = true → n = 1 ∧ align ≤ 1) (useRegion fr : Bool) {sys1 sys2 : Option Rng} (hs1 : SysOK ob H sys1)
    (hs2 : SysOK ob (hlFromPages N n) sys2) (a b : Nat) :
    ∃ s' res, s.step H N mode (.newAligned n align objs dense useRegion fr sys1 sys2 a b) = some (s', res) ∧
      (res.out = .fail ∨ res.out = .waiting ∨ ∃ r b, res.out = .run r b ∧ r.n = n ∧ r.objs = objs ∧ align ∣ r.p ∧
        ∀ p, r.Has p → Cov (res.got ++ ob) (p / N) ∧ ∀ t ∈ L, ¬ t.Has p) := by
  obtain ⟨ow, u, fg, rg, runs, k⟩ := h.k hN hH
  obtain ⟨s', res, e, -, ho, -⟩ := k.newAlignedOp hN hH hn hal objs hden useRegion fr hs1 hs2 a b
  have h' := h.step (.newAligned n align objs dense useRegion fr sys1 sys2 a b) ⟨hn, hal, hden, hs1, hs2⟩ e
  refine ⟨s', res, e, ?_⟩
  rcases ho with ho | ho | ⟨p, d, fr', ho, hp⟩
  · exact Or.inl ho
  · exact Or.inr (Or.inl ho)
  · refine Or.inr (Or.inr ⟨_, _, ho, rfl, rfl, ?_, fun q hq => ?_⟩)
    · by_cases h1 : 1 < align
      · exact Nat.dvd_trans hdiv (Nat.dvd_of_mod_eq_zero (hp (by simp [h1])))
      · have : align ≠ 0 := by
          rintro rfl
          have := Nat.eq_zero_of_zero_dvd hdiv
          omega
        have : align = 1 := by omega
        rw [this]; exact Nat.one_dvd _
    · obtain ⟨h1, h2, -⟩ := runs_disjoint hN hH h'
      rw [ho] at h1 h2
      simp only [live', List.pairwise_cons] at h1 h2
      exact ⟨(h2 _ List.mem_cons_self).2 q hq, fun t ht => h1.1 t ht q hq⟩

/-- C21: a request that waited gets exactly what it asked for. -/
theorem refill_exact (hN : 2 ≤ N) (hH : 0 < H) (h : Reach H N mode s ob L) {i : Nat} (hi : i < s.refills.length) :
    ∃ s' x b, s.refills[i]? = some x ∧
      s.step H N mode (.refillDone i) = some (s', ⟨.run ⟨x.hp * N, x.n, x.objs, false⟩ b, [], []⟩) ∧ 0 < x.n ∧ x.n ≤ N ∧
      ∀ p, p / N = x.hp → ∀ t ∈ L, ¬ t.Has p := by
  obtain ⟨ow, u, fg, rg, runs, k⟩ := h.k hN hH
  obtain ⟨s', x, b, hx, e, -⟩ := k.refillDone hN hi
  have hxm := List.mem_of_getElem? hx
  refine ⟨s', x, b, hx, e, (k.refs x hxm).1, (k.refs x hxm).2.1, ?_⟩
  intro p hp t ht htp
  obtain ⟨y, hy, rfl⟩ := k.mem_run ht
  have hd := k.own.disj
  unfold owners at hd
  have hmem : (⟨x.hp, 1⟩ : Rng) ∈ s.refills.map (fun x => (⟨x.hp, 1⟩ : Rng)) := List.mem_map.2 ⟨x, hxm, rfl⟩
  have hhas : (⟨x.hp, 1⟩ : Rng).Has (p / N) := by rw [hp]; exact ⟨Nat.le_refl _, Nat.lt_succ_self _⟩
  obtain ⟨-, hd2, hd3⟩ := List.pairwise_append.1 hd
  obtain ⟨-, hd4, hd5⟩ := List.pairwise_append.1 hd2
  obtain ⟨-, -, hd6⟩ := List.pairwise_append.1 hd4
  cases k.at hN hy htp with
  | fill id a j hf ha hj hpj =>
    have hm := (k.inFiller hN hy hf).2.1
    refine hd3 ⟨(s.fill.tr id).loc, 1⟩ (List.mem_map.2 ⟨id, hm, rfl⟩) _ (List.mem_append_right _ (List.mem_append_left _ hmem))
      (p / N) ?_ hhas
    rw [hpj, div_add hj]; exact ⟨Nat.le_refl _, Nat.lt_succ_self _⟩
  | region id i n j hid hr h1 h2 h3 hpj =>
    refine hd6 _ hmem ⟨(s.regs.reg id).loc, H⟩ (by simp [k.region_taken hid]) (p / N) hhas ?_
    rw [hpj]; exact reg_div (by omega) h3
  | raw r hr hpr =>
    exact hd5 r (List.mem_filterMap.2 ⟨y, hy, hr⟩) _ (List.mem_append_left _ hmem) (p / N) hpr hhas

/-! ### Conservation of hugepages -/

/-- Exactly one of the propositions holds. -/
def ExactlyOne : List Prop → Prop
  | [] => False
  | a :: l => (a ∧ ∀ b ∈ l, ¬ b) ∨ (¬ a ∧ ExactlyOne l)

/-- The places a hugepage can be: free in the hugepage allocator; in the hugepage cache; taken out of the cache to be
unbacked; tracked by the filler; in a region; covered by a run of whole hugepages; in the hand of a waiting call. -/
def HP.inRegion (H : Nat) (s : HP) (p : Nat) : Prop :=
  ∃ id ∈ s.regs.ids, (s.regs.reg id).loc ≤ p ∧ p < (s.regs.reg id).loc + H
def HP.inHand (s : HP) (p : Nat) : Prop :=
  (∃ x ∈ s.refills, x.hp = p) ∨ ∃ x ∈ s.puts, ∃ hp hl, x.k = .c hp hl ∧ hp ≤ p ∧ p < hp + (hl - 1)
def HP.inRun (H N : Nat) (s : HP) (L : List Run) (p : Nat) : Prop :=
  s.trk p = none ∧ ¬ s.inRegion H p ∧ ∃ r ∈ L, r.p % N = 0 ∧ r.p ≤ p * N ∧ (p + 1) * N ≤ r.p + r.n
def HP.places (H N : Nat) (s : HP) (L : List Run) (p : Nat) : List Prop :=
  [Cov (ranges s.cache.alloc.free.root) p, Cov (ranges s.cache.cache.root) p, Cov s.cache.busy p, s.trk p ≠ none,
    s.inRegion H p, s.inRun H N L p, s.inHand p]

theorem K.inHand_iff {ow : PSet} {u : Nat} {fg : Filler.Gh} {rg : HugeRegion.Gh} {runs : List X}
    (_k : K H N mode s ob L [] [] [] ow u fg rg runs) (p : Nat) :
    s.inHand p ↔ Cov (s.refills.map fun x => (⟨x.hp, 1⟩ : Rng)) p ∨ Cov (s.puts.filterMap PendPut.raw) p := by
  unfold HP.inHand Cov
  constructor
  · rintro (⟨x, hx, rfl⟩ | ⟨x, hx, hp, hl, e, h1, h2⟩)
    · exact Or.inl ⟨_, List.mem_map.2 ⟨x, hx, rfl⟩, Nat.le_refl _, Nat.lt_succ_self _⟩
    · exact Or.inr ⟨⟨hp, hl - 1⟩, List.mem_filterMap.2 ⟨x, hx, by unfold PendPut.raw; rw [e]⟩, h1, h2⟩
  · rintro (⟨r, hr, h1, h2⟩ | ⟨r, hr, h1, h2⟩)
    · obtain ⟨x, hx, rfl⟩ := List.mem_map.1 hr
      simp only [] at h1 h2
      exact Or.inl ⟨x, hx, by omega⟩
    · obtain ⟨x, hx, e⟩ := List.mem_filterMap.1 hr
      unfold PendPut.raw at e
      cases hk : x.k with
      | a b => rw [hk] at e; cases e
      | c hp hl => rw [hk] at e; cases e; exact Or.inr ⟨x, hx, hp, hl, hk, h1, h2⟩

theorem cov_mem {A B : List Rng} (h : A.Perm B) (p : Nat) : Cov A p ↔ Cov B p := by
  unfold Cov
  constructor
  · rintro ⟨r, hr, hp⟩; exact ⟨r, h.mem_iff.1 hr, hp⟩
  · rintro ⟨r, hr, hp⟩; exact ⟨r, h.mem_iff.2 hr, hp⟩

theorem ExactlyOne.of : ∀ {l : List Prop}, l.Pairwise (fun a b => a → ¬ b) → (∃ a ∈ l, a) → ExactlyOne l
  | [], _, ⟨_, h, _⟩ => by cases h
  | b :: l, hp, ⟨a, ha, ht⟩ => by
    obtain ⟨h1, h2⟩ := List.pairwise_cons.1 hp
    by_cases hb : b
    · exact Or.inl ⟨hb, fun c hc => h1 c hc hb⟩
    · refine Or.inr ⟨hb, ExactlyOne.of h2 ?_⟩
      rcases List.mem_cons.1 ha with rfl | h
      · exact absurd ht hb
      · exact ⟨a, h, ht⟩

theorem exactly {X0 X1 X2 X3 X4 X5 X6 X7 X8 : Prop}
    (c1 : X0 ↔ X1 ∨ X2 ∨ X3 ∨ X4 ∨ X6 ∨ X7 ∨ X8 ∨ X5)
    (c2 : X1 → ¬ X2 ∧ ¬ X3 ∧ ¬ (X4 ∨ X6 ∨ X7 ∨ X8 ∨ X5)) (c3 : X2 → ¬ X3 ∧ ¬ (X4 ∨ X6 ∨ X7 ∨ X8 ∨ X5))
    (c4 : X3 → ¬ (X4 ∨ X6 ∨ X7 ∨ X8 ∨ X5))
    (f1 : X4 → ¬ (X6 ∨ X7 ∨ X8 ∨ X5)) (f2 : X6 → ¬ (X7 ∨ X8 ∨ X5)) (f3 : X7 → ¬ (X8 ∨ X5)) (f4 : X8 → ¬ X5) :
    (X0 → ExactlyOne [X1, X2, X3, X4, X5, X6, X7 ∨ X8]) ∧ (¬ X0 → ∀ q ∈ [X1, X2, X3, X4, X5, X6, X7 ∨ X8], ¬ q) := by
  constructor
  · intro x0
    refine ExactlyOne.of ?_ ?_
    · simp only [not_or] at c2 c3 c4 f1 f2 f3
      simp only [List.pairwise_cons, List.mem_cons, List.not_mem_nil, or_false, forall_eq_or_imp, forall_eq, not_or,
        List.Pairwise.nil, and_true, false_imp_iff, implies_true]
      exact ⟨⟨fun h => (c2 h).1, fun h => (c2 h).2.1, fun h => (c2 h).2.2.1, fun h => (c2 h).2.2.2.2.2.2,
          fun h => (c2 h).2.2.2.1, fun h => ⟨(c2 h).2.2.2.2.1, (c2 h).2.2.2.2.2.1⟩⟩,
        ⟨fun h => (c3 h).1, fun h => (c3 h).2.1, fun h => (c3 h).2.2.2.2.2,
          fun h => (c3 h).2.2.1, fun h => ⟨(c3 h).2.2.2.1, (c3 h).2.2.2.2.1⟩⟩,
        ⟨fun h => (c4 h).1, fun h => (c4 h).2.2.2.2, fun h => (c4 h).2.1, fun h => ⟨(c4 h).2.2.1, (c4 h).2.2.2.1⟩⟩,
        ⟨fun h => (f1 h).2.2.2, fun h => (f1 h).1, fun h => ⟨(f1 h).2.1, (f1 h).2.2.1⟩⟩,
        ⟨fun h h' => (f2 h').2.2 h, fun h => ⟨fun h' => (f3 h').2 h, fun h' => f4 h' h⟩⟩,
        fun h => ⟨(f2 h).1, (f2 h).2.1⟩⟩
    · rcases c1.1 x0 with h | h | h | h | h | h | h | h
      · exact ⟨X1, by simp, h⟩
      · exact ⟨X2, by simp, h⟩
      · exact ⟨X3, by simp, h⟩
      · exact ⟨X4, by simp, h⟩
      · exact ⟨X6, by simp, h⟩
      · exact ⟨X7 ∨ X8, by simp, Or.inl h⟩
      · exact ⟨X7 ∨ X8, by simp, Or.inr h⟩
      · exact ⟨X5, by simp, h⟩
  · intro x0
    rw [c1] at x0
    simp only [not_or] at x0
    simp only [List.mem_cons, List.not_mem_nil, or_false, forall_eq_or_imp, forall_eq, not_or]
    exact ⟨x0.1, x0.2.1, x0.2.2.1, x0.2.2.2.1, x0.2.2.2.2.2.2.2, x0.2.2.2.2.1, x0.2.2.2.2.2.1, x0.2.2.2.2.2.2.1⟩

/-- C21: every hugepage obtained from the system is in exactly one place, and no other hugepage is in any. -/
theorem conservation (hN : 2 ≤ N) (hH : 0 < H) (h : Reach H N mode s ob L) (p : Nat) :
    (Cov ob p → ExactlyOne (s.places H N L p)) ∧ (¬ Cov ob p → ∀ q ∈ s.places H N L p, ¬ q) := by
  obtain ⟨ow, u, fg, rg, runs, k⟩ := h.k hN hH
  have h0 : 0 < N := by omega
  obtain ⟨c1, c2, c3, c4, -⟩ := HugeCache.conservation k.cache
  have hT : s.trk p ≠ none ↔ Cov ((trackers s [] fg).map fun id => (⟨(s.fill.tr id).loc, 1⟩ : Rng)) p := by
    constructor
    · intro hne
      cases ht : s.trk p with
      | none => exact absurd ht hne
      | some id =>
        obtain ⟨m, e⟩ := (k.trk p id).1 ht
        exact ⟨_, List.mem_map.2 ⟨id, m, rfl⟩, by simp only []; omega, by simp only []; omega⟩
    · rintro ⟨r, hr, h1, h2⟩
      obtain ⟨id, m, rfl⟩ := List.mem_map.1 hr
      simp only [] at h1 h2
      rw [(k.trk p id).2 ⟨m, by omega⟩]; simp
  have hR : s.inRegion H p ↔ Cov s.cache.taken p := by
    rw [cov_mem k.taken]
    unfold HP.inRegion Cov
    constructor
    · rintro ⟨id, hid, h1, h2⟩; exact ⟨_, List.mem_map.2 ⟨id, hid, rfl⟩, h1, h2⟩
    · rintro ⟨r, hr, h1, h2⟩
      obtain ⟨id, hid, rfl⟩ := List.mem_map.1 hr
      exact ⟨id, hid, h1, h2⟩
  have hI := k.inHand_iff p
  have hd := k.own.disj
  have hcov := k.own.cov p
  unfold owners at hd hcov
  obtain ⟨-, hd2, e1⟩ := List.pairwise_append.1 hd
  obtain ⟨-, hd3, e2⟩ := List.pairwise_append.1 hd2
  obtain ⟨-, hd4, e3⟩ := List.pairwise_append.1 hd3
  obtain ⟨-, hd5, e4⟩ := List.pairwise_append.1 hd4
  rw [cov_append, cov_append, cov_append, cov_append, List.nil_append, ← hT, ← hR] at hcov
  have lift : ∀ {A B : List Rng}, (∀ a ∈ A, ∀ b ∈ B, ∀ p, a.Has p → ¬ b.Has p) → Cov A p → ¬ Cov B p := by
    rintro A B hAB ⟨a, ha, h1⟩ ⟨b, hb, h2⟩; exact hAB a ha b hb p h1 h2
  have f1 := lift e1
  have f2 := lift e2
  have f3 := lift e3
  have f4 := lift e4
  rw [← hT, cov_append, cov_append, cov_append, List.nil_append, ← hR] at f1
  rw [cov_append, cov_append, List.nil_append, ← hR] at f2
  rw [cov_append, List.nil_append, ← hR] at f3
  rw [List.nil_append, ← hR] at f4
  have hW : s.inRun H N L p ↔ Cov (runs.filterMap rawPart) p := by
    constructor
    · rintro ⟨ht, hr, r, hrL, h1, h2, h3⟩
      obtain ⟨x, hx, rfl⟩ := k.mem_run hrL
      have hq : x.1.Has (p * N) := ⟨h2, by rw [Nat.add_mul] at h3; omega⟩
      have hdv : p * N / N = p := Nat.mul_div_cancel _ h0
      cases k.at hN hx hq with
      | fill id a j hf ha hj hpj =>
        have htk := (k.inFiller hN hx hf).2.2.2.2
        have := div_add (l := (s.fill.tr id).loc) hj
        rw [← hpj, hdv] at this
        rw [← this, ht] at htk; cases htk
      | region id i n j hid hrp h4 h5 h6 hpj =>
        have := reg_div (H := H) (l := (s.regs.reg id).loc) h0 h6
        rw [← hpj, hdv] at this
        exact absurd ⟨id, hid, this⟩ hr
      | raw r hr' hpr => rw [hdv] at hpr; exact ⟨r, List.mem_filterMap.2 ⟨x, hx, hr'⟩, hpr⟩
    · intro hc
      refine ⟨Classical.byContradiction fun hne => f1 hne (Or.inl hc), fun hr => f2 hc (Or.inr (Or.inr hr)), ?_⟩
      obtain ⟨r, hr, hp1, hp2⟩ := hc
      obtain ⟨x, hx, e⟩ := List.mem_filterMap.1 hr
      have hv := k.valid x hx
      refine ⟨x.1, k.perm.mem_iff.1 (List.mem_map.2 ⟨x, hx, rfl⟩), ?_⟩
      obtain ⟨t, kd⟩ := x
      have g1 : r.s * N ≤ p * N := Nat.mul_le_mul_right _ hp1
      have g2 : (p + 1) * N ≤ (r.s + r.n) * N := Nat.mul_le_mul_right _ hp2
      rw [Nat.add_mul r.s] at g2
      cases kd with
      | fill id a => cases e
      | region id i => cases e
      | whole hp hl =>
        cases e
        obtain ⟨v1, v2, v3, v4⟩ := hv
        simp only [] at *
        rw [v2, v3]
        exact ⟨Nat.mul_mod_left _ _, g1, g2⟩
      | tail hp hl id a =>
        cases e
        obtain ⟨v1, v2, v3, v4, v5, v6, v7, v8⟩ := hv
        simp only [] at *
        rw [v5, v6]
        exact ⟨Nat.mul_mod_left _ _, g1, by omega⟩
  rw [← hW] at f1 f2 hcov
  have hpl : s.places H N L p = [Cov (ranges s.cache.alloc.free.root) p, Cov (ranges s.cache.cache.root) p, Cov s.cache.busy p,
      s.trk p ≠ none, s.inRegion H p, s.inRun H N L p,
      Cov (s.refills.map fun x => (⟨x.hp, 1⟩ : Rng)) p ∨ Cov (s.puts.filterMap PendPut.raw) p] := by
    unfold HP.places; rw [propext hI]
  have c1 := c1 p
  have c2 := c2 p
  have c3 := c3 p
  have c4 := c4 p
  rw [hcov] at c1 c2 c3 c4
  rw [hpl]
  exact exactly c1 c2 c3 c4 f1 f2 f3 f4

/-- C21: the two counters of donated hugepages are exact: how many hugepages the filler tracks are tails of ranges of
hugepages, and how many pages of them were left behind when the range was returned. -/
theorem donation_exact (hN : 2 ≤ N) (hH : 0 < H) (h : Reach H N mode s ob L) :
    ∃ T : List Nat, T.Nodup ∧ (∀ id, id ∈ T ↔ ∃ p, s.trk p = some id) ∧
      s.donated = T.countP (fun id => (s.info id).donated) ∧
      s.abandoned = (T.map fun id => if (s.info id).abandoned then (s.info id).count else 0).sum := by
  obtain ⟨ow, u, fg, rg, runs, k⟩ := h.k hN hH
  refine ⟨trackers s [] fg, k.nd, fun id => ⟨fun hid => ⟨_, (k.trk _ id).2 ⟨hid, rfl⟩⟩, fun ⟨p, hp⟩ => ((k.trk p id).1 hp).1⟩,
    k.donated, k.abandoned⟩

/-! ### C22 -/

/-- C22: the page heap's statistics are exact at every moment: the system bytes are what was obtained from the system,
and what is neither free nor unmapped is the pages in use and the hugepages in the hand of waiting calls. -/
theorem stats_exact (hN : 2 ≤ N) (hH : 0 < H) (h : Reach H N mode s ob L) :
    ∃ st, s.stats H N = some st ∧ st.system = lenSum ob * N ∧
      st.system = st.free + st.unmapped + (L.map Run.n).sum + s.pending * N := by
  obtain ⟨ow, u, fg, rg, runs, k⟩ := h.k hN hH
  exact k.stats hN

/-- C22: when nothing waits, the used pages of the statistics are the pages of the runs in use. -/
theorem stats_quiet (hN : 2 ≤ N) (hH : 0 < H) (h : Reach H N mode s ob L) (hq : s.quiet) :
    ∃ st, s.stats H N = some st ∧ st.system = lenSum ob * N ∧ st.system - st.free - st.unmapped = (L.map Run.n).sum := by
  obtain ⟨st, h1, h2, h3⟩ := stats_exact hN hH h
  obtain ⟨q1, q2, q3, q4⟩ := hq
  have hp : s.pending = 0 := by
    unfold HP.pending HugeCache.S.busy
    rw [q1, q2, q3, q4]; rfl
  rw [hp] at h3
  exact ⟨st, h1, h2, by omega⟩

/-! ### C13 -/

/-- C13: no call of the kernel made in a step touches a page of a run in use, whether the call succeeds or not. -/
theorem live_never_released (hN : 2 ≤ N) (hH : 0 < H) (h : Reach H N mode s ob L) (e : Ev) (he : e.Pre H N ob L s) {s' : HP} {res : Res}
    (hs : s.step H N mode e = some (s', res)) (c : Call) (hc : c ∈ res.calls) (r : Run) (hr : r ∈ live' L e res.out) (p : Nat)
    (hp : c.Has p) : ¬ r.Has p := by
  obtain ⟨ow, u, fg, rg, runs, k⟩ := h.k hN hH
  obtain ⟨s1, res1, e1, ow', u', fg', rg', runs', k', hfree⟩ := k.step hN hH e he
  rw [hs] at e1
  cases e1
  intro hrp
  have h0 : 0 < N := by omega
  obtain ⟨x, hx, rfl⟩ := k'.mem_run hr
  rcases hfree c hc with ⟨id, hid, h1, h2, h3⟩ | ⟨id, hid, h1, h2, h3⟩
  · have hd : p / N = (s'.fill.tr id).loc := by
      obtain ⟨g1, g2⟩ := hp
      rw [Nat.add_mul] at h2
      have e : p = (s'.fill.tr id).loc * N + (p - (s'.fill.tr id).loc * N) := by omega
      rw [e, div_add (by omega)]
    cases k'.at hN hx hrp with
    | fill id' a j hf ha hj hpj =>
      obtain ⟨m1, m2, -⟩ := k'.inFiller hN hx hf
      rw [hpj, div_add hj] at hd
      have := k'.tracker_unique m2 hid hd
      subst this
      exact h3 a m1 j ha (hpj ▸ hp)
    | region id' i n j hid' hrp' g1 g2 g3 hpj =>
      refine k'.region_no_tracker hid' hid ?_
      rw [← hd, hpj]; exact reg_div h0 g3
    | raw r hr' hpr =>
      rw [hd] at hpr
      exact k'.raw_no_tracker (List.mem_filterMap.2 ⟨x, hx, hr'⟩) hid hpr
  · have hd : (s'.regs.reg id).loc ≤ p / N ∧ p / N < (s'.regs.reg id).loc + H := by
      obtain ⟨g1, g2⟩ := hp
      exact ⟨(Nat.le_div_iff_mul_le h0).2 (by omega), (Nat.div_lt_iff_lt_mul h0).2 (by omega)⟩
    cases k'.at hN hx hrp with
    | fill id' a j hf ha hj hpj =>
      rw [hpj, div_add hj] at hd
      exact k'.region_no_tracker hid (k'.inFiller hN hx hf).2.1 hd
    | region id' i n j hid' hrp' g1 g2 g3 hpj =>
      have hd' := reg_div (H := H) (l := (s'.regs.reg id').loc) h0 g3
      rw [← hpj] at hd'
      have := k'.region_unique h0 hid hid' hd hd'
      subst this
      have hu := h3 j (hpj ▸ hp)
      have hm := (k'.inRegion h0 hx (id := id) (a := (i, n)) hid hrp').1
      unfold HugeRegion.usedBy at hu
      have := (List.any_eq_false.1 hu) _ hm
      simp at this
      omega
    | raw r hr' hpr => exact k'.raw_no_region (List.mem_filterMap.2 ⟨x, hx, hr'⟩) hpr hid hd

/-- C13: a page of a run in use is never on its way back to the kernel in a call that waits. -/
theorem live_never_leaving (hN : 2 ≤ N) (hH : 0 < H) (h : Reach H N mode s ob L) (r : Run) (hr : r ∈ L) (p : Nat)
    (hp : r.Has p) : ¬ s.leaving N p := by
  obtain ⟨ow, u, fg, rg, runs, k⟩ := h.k hN hH
  obtain ⟨x, hx, rfl⟩ := k.mem_run hr
  have hin := (k.at hN hx hp).inside k hN hx
  rintro (hb | ⟨y, hy, hl⟩)
  · exact k.cache.K.bo _ hb hin
  · have hfl : y.id ∈ fg.flight.map Prod.fst := by
      rw [k.flight, List.map_map]
      exact List.mem_map.2 ⟨y, hy, rfl⟩
    have hid : y.id ∈ Filler.ids s.fill fg := by
      unfold Filler.ids; simp only [List.mem_append]; exact Or.inr (Or.inl hfl)
    cases k.at hN hx hp with
    | fill id' a j hf ha hj hpj =>
      obtain ⟨m1, m2, -⟩ := k.inFiller hN hx hf
      rw [hpj, div_add hj] at hl
      have := k.tracker_unique m2 hid hl.symm
      subst this
      exact (k.fill.k hN).1.flight_not_held hfl (k.held_of hN hx hf)
    | region id' i n j hid' hrp' g1 g2 g3 hpj =>
      refine k.region_no_tracker hid' hid ?_
      rw [hl, hpj]; exact reg_div (by omega) g3
    | raw r hr' hpr =>
      rw [← hl] at hpr
      exact k.raw_no_tracker (List.mem_filterMap.2 ⟨x, hx, hr'⟩) hid hpr

/-! ### Which pages are allocated -/

theorem pred_cov {t : Tree} (hs : Sep (ranges t)) (p : Nat) :
    (∃ r, pred p t none = some r ∧ r.Has p) ↔ Cov (ranges t) p := by
  rw [pred_spec p t none hs, Option.or_none]
  constructor
  · rintro ⟨r, hg, hh⟩
    obtain ⟨A, hA⟩ := List.getLast?_eq_some_iff.1 hg
    have hm : r ∈ (ranges t).filter (fun x => decide (x.s ≤ p)) := by rw [hA]; simp
    exact ⟨r, (List.mem_filter.1 hm).1, hh⟩
  · rintro ⟨q, hq, q1, q2⟩
    have hqf : q ∈ (ranges t).filter (fun x => decide (x.s ≤ p)) := List.mem_filter.2 ⟨hq, by simpa using q1⟩
    cases hg : ((ranges t).filter (fun x => decide (x.s ≤ p))).getLast? with
    | none => rw [List.getLast?_eq_none_iff] at hg; rw [hg] at hqf; cases hqf
    | some r =>
      refine ⟨r, rfl, ?_⟩
      obtain ⟨A, hA⟩ := List.getLast?_eq_some_iff.1 hg
      have hp := List.Pairwise.filter (fun x => decide (x.s ≤ p)) hs.2
      have hrm : r ∈ (ranges t).filter (fun x => decide (x.s ≤ p)) := by rw [hA]; simp
      rw [hA] at hqf hp
      rcases List.mem_append.1 hqf with h' | h'
      · have := (List.pairwise_append.1 hp).2.2 q h' r (by simp)
        have := (List.mem_filter.1 hrm).2
        simp at this; omega
      · simp only [List.mem_singleton] at h'; subst h'; exact ⟨q1, q2⟩

theorem cacheContains_iff {c : HugeCache.S} (hs : Sep (ranges c.cache.root)) (p : Nat) :
    cacheContains c p = true ↔ Cov (ranges c.cache.root) p := by
  rw [← pred_cov hs]
  unfold cacheContains
  cases HugeAddressMap.pred p c.cache.root none with
  | none => simp
  | some r => simp [contains_iff]

theorem allocContains_iff {a : HA} (hs : Sep (ranges a.free.root)) (p : Nat) :
    HugeAllocator.contains a p = true ↔ Cov (ranges a.free.root) p := by
  rw [← pred_cov hs]
  unfold HugeAllocator.contains
  cases HugeAddressMap.pred p a.free.root none with
  | none => simp
  | some r => simp [contains_iff]

/-- C21: the report of which pages are allocated.  A page in use is always reported as allocated.  A page reported as
allocated is in use, or on a hugepage in the hand of a waiting call, or not memory of this page heap. -/
theorem pageStatus_exact (hN : 2 ≤ N) (hH : 0 < H) (h : Reach H N mode s ob L) (hp i : Nat) (hi : i < N) :
    ((∃ r ∈ L, r.Has (hp * N + i)) → s.pageStatus H N hp i = true) ∧
    (s.pageStatus H N hp i = true →
      (∃ r ∈ L, r.Has (hp * N + i)) ∨ Cov s.cache.busy hp ∨ s.inHand hp ∨ ¬ Cov ob hp) := by
  have hcons := conservation hN hH h hp
  obtain ⟨ow, u, fg, rg, runs, k⟩ := h.k hN hH
  have h0 : 0 < N := by omega
  have hdv : (hp * N + i) / N = hp := div_add hi
  have hc := k.cache.K
  have live_of : ∀ x ∈ runs, x.1.Has (hp * N + i) → ∃ r ∈ L, r.Has (hp * N + i) := fun x hx hh =>
    ⟨x.1, k.perm.mem_iff.1 (List.mem_map.2 ⟨x, hx, rfl⟩), hh⟩
  unfold HP.pageStatus
  cases ht : s.trk hp with
  | some id =>
    obtain ⟨hid, hloc⟩ := (k.trk hp id).1 ht
    have hg := (k.fill.k hN).1.gd id (Filler.mem_ids.1 hid)
    have hu := hg.used_iff i
    unfold PT.Used at hu
    simp only []
    constructor
    · rintro ⟨r, hr, hrp⟩
      obtain ⟨x, hx, rfl⟩ := k.mem_run hr
      rw [hu]
      cases k.at hN hx hrp with
      | fill id' a j hf ha hj hpj =>
        obtain ⟨m1, m2, -⟩ := k.inFiller hN hx hf
        obtain ⟨e1, e2⟩ := div_eq hi hj hpj
        have := k.tracker_unique m2 hid (by rw [← e1, hloc])
        subst this; subst e2
        exact ⟨a, m1, ha⟩
      | region id' i' n j hid' hrp' g1 g2 g3 hpj =>
        exfalso
        refine k.region_no_tracker hid' hid ?_
        rw [hloc, ← hdv, hpj]; exact reg_div h0 g3
      | raw r hr' hpr =>
        rw [hdv, ← hloc] at hpr
        exact absurd hpr (k.raw_no_tracker (List.mem_filterMap.2 ⟨x, hx, hr'⟩) hid)
    · intro hb
      obtain ⟨a, ha, haj⟩ := hu.1 hb
      have := (k.flive id).mem_iff.1 ha
      obtain ⟨x, hx, hf⟩ := List.mem_filterMap.1 this
      refine Or.inl (live_of x hx ?_)
      have hv := k.valid x hx
      obtain ⟨r, kd⟩ := x
      obtain ⟨a1, a2⟩ := haj
      cases kd with
      | fill id' a' =>
        simp only [fpart] at hf
        split at hf
        · next e =>
          cases hf
          subst e
          obtain ⟨v1, v2, v3⟩ := hv
          simp only [Run.Has]
          rw [hloc] at v1
          omega
        · cases hf
      | tail hp' hl id' a' =>
        simp only [fpart] at hf
        split at hf
        · next e =>
          cases hf
          subst e
          obtain ⟨v1, v2, v3, v4, v5, v6, v7, v8⟩ := hv
          simp only [Run.Has]
          rw [hloc] at v4
          have : (hp' + hl) * N = hp' * N + hl * N := Nat.add_mul ..
          rw [← v4] at this
          omega
        · cases hf
      | region id' i' => cases hf
      | whole hp' hl => cases hf
  | none =>
    simp only []
    cases hr : regionStatus H N s.regs hp with
    | some f =>
      unfold regionStatus at hr
      cases hf : s.regs.ids.find? (fun id => (s.regs.reg id).contains H N (hp * N)) with
      | none => rw [hf] at hr; cases hr
      | some id =>
        rw [hf] at hr
        simp only [] at hr
        have hid := List.mem_of_find?_eq_some hf
        have hcon := List.find?_some hf
        simp only [HugeRegion.R.contains, decide_eq_true_eq, Nat.mul_div_cancel _ h0] at hcon
        have kr := (k.regs.ks h0).reg id hid
        obtain ⟨r1, -, -, -, -, -, r7, r8, -⟩ := HugeRegion.region_exact h0 k.regs hid
        have hb := HugeRegion.bits_eq kr.good
        have hpos : (hp - (s.regs.reg id).loc) * N + i + (s.regs.reg id).loc * N = hp * N + i := by
          have : (hp - (s.regs.reg id).loc) * N + (s.regs.reg id).loc * N = hp * N := by
            rw [← Nat.add_mul]; congr 1; omega
          omega
        have hiff : (∃ r ∈ L, r.Has (hp * N + i)) ↔
            HugeRegion.usedBy (rg.live id) ((hp - (s.regs.reg id).loc) * N + i) = true := by
          constructor
          · rintro ⟨r, hrL, hrp⟩
            obtain ⟨x, hx, rfl⟩ := k.mem_run hrL
            cases k.at hN hx hrp with
            | fill id' a j hfp ha hj hpj =>
              have := (k.inFiller hN hx hfp).2.2.2.2
              rw [← (div_eq hi hj hpj).1, ht] at this
              cases this
            | region id' i' n j hid' hrp' g1 g2 g3 hpj =>
              have hd' := reg_div (H := H) (l := (s.regs.reg id').loc) h0 g3
              rw [← hpj, hdv] at hd'
              have := k.region_unique h0 hid' hid hd' ⟨hcon.1, by omega⟩
              subst this
              have hm := (k.inRegion h0 hx (id := id') (a := (i', n)) hid hrp').1
              unfold HugeRegion.usedBy
              refine List.any_eq_true.2 ⟨_, hm, ?_⟩
              simp only [decide_eq_true_eq]
              omega
            | raw r hr' hpr =>
              rw [hdv] at hpr
              exact absurd ⟨hcon.1, by omega⟩ (k.raw_no_region (List.mem_filterMap.2 ⟨x, hx, hr'⟩) hpr hid)
          · intro hu
            obtain ⟨a, ha, haj⟩ := List.any_eq_true.1 hu
            simp only [decide_eq_true_eq] at haj
            obtain ⟨x, hx, hfp⟩ := List.mem_filterMap.1 ((k.rlive id hid).mem_iff.1 ha)
            refine live_of x hx ?_
            have hv := k.valid x hx
            obtain ⟨r, kd⟩ := x
            cases kd with
            | region id' i' =>
              simp only [rpart] at hfp
              split at hfp
              · next e =>
                cases hfp
                subst e
                obtain ⟨v1, v2, v3⟩ := hv
                simp only [Run.Has] at *
                omega
              · cases hfp
            | fill id' a' => cases hfp
            | tail hp' hl id' a' => cases hfp
            | whole hp' hl => cases hfp
        rw [hiff]
        split at hr
        · next hbk =>
          cases hr
          simp only [hb]
          exact ⟨fun h => h, fun h => Or.inl h⟩
        · next hbk =>
          cases hr
          refine ⟨fun h => ?_, fun h => by cases h⟩
          have := r8 _ h
          rw [Nat.mul_comm, Nat.mul_add_div h0, Nat.div_eq_of_lt hi, Nat.add_zero] at this
          exact absurd ((r7 _ hcon.2).2 this) hbk
    | none =>
      have hnr : ¬ s.inRegion H hp := by
        rintro ⟨id, hid, h1, h2⟩
        unfold regionStatus at hr
        cases hf : s.regs.ids.find? (fun id => (s.regs.reg id).contains H N (hp * N)) with
        | none =>
          have := List.find?_eq_none.1 hf id hid
          simp only [HugeRegion.R.contains, decide_eq_true_eq, Nat.mul_div_cancel _ h0] at this
          omega
        | some id =>
          rw [hf] at hr
          simp only [] at hr
          split at hr <;> cases hr
      simp only []
      have hb1 := cacheContains_iff hc.inv.sep hp
      have hb2 := allocContains_iff hc.j.inv.sep hp
      have hco := HugeCache.conservation k.cache
      have hlive : ∀ r ∈ L, r.Has (hp * N + i) → ow hp := by
        intro r hrL hrp
        obtain ⟨x, hx, rfl⟩ := k.mem_run hrL
        have := (k.at hN hx hrp).inside k hN hx
        rwa [hdv] at this
      by_cases hcc : cacheContains s.cache hp || HugeAllocator.contains s.cache.alloc hp
      · rw [if_pos hcc]
        refine ⟨?_, fun h => by cases h⟩
        rintro ⟨r, hrL, hrp⟩
        have ho := hlive r hrL hrp
        rcases Bool.or_eq_true _ _ ▸ hcc with h1 | h1
        · exact absurd ho (hco.2.2.1 hp (hb1.1 h1)).2
        · exact absurd ho (hco.2.1 hp (hb2.1 h1)).2.2
      · rw [if_neg hcc]
        refine ⟨fun _ => rfl, fun _ => ?_⟩
        by_cases hob : Cov ob hp
        · have he := hcons.1 hob
          rw [Bool.or_eq_true, hb1, hb2, not_or] at hcc
          unfold HP.places at he
          simp only [ExactlyOne] at he
          rcases he with h | ⟨-, he⟩
          · exact absurd h.1 hcc.2
          rcases he with h | ⟨-, he⟩
          · exact absurd h.1 hcc.1
          rcases he with h | ⟨-, he⟩
          · exact Or.inr (Or.inl h.1)
          rcases he with h | ⟨-, he⟩
          · exact absurd ht h.1
          rcases he with h | ⟨-, he⟩
          · exact absurd h.1 hnr
          rcases he with h | ⟨-, he⟩
          · obtain ⟨-, -, r, hrL, h1, h2, h3⟩ := h.1
            rw [Nat.add_mul] at h3
            exact Or.inl ⟨r, hrL, by omega, by omega⟩
          rcases he with h | ⟨-, he⟩
          · exact Or.inr (Or.inr (Or.inl h.1))
          · exact he.elim
        · exact Or.inr (Or.inr (Or.inr hob))

/-! ### What a release reports -/

/-- The pages of the calls that succeeded. -/
def okPages : List Call → Nat
  | [] => 0
  | c :: cs => (if c.ok then c.n else 0) + okPages cs

theorem okPages_append (A B : List Call) : okPages (A ++ B) = okPages A + okPages B := by
  induction A with
  | nil => simp [okPages]
  | cons a A ih => simp only [List.cons_append, okPages, ih]; omega

theorem okPages_filler (s : HP) : ∀ log : Filler.Log, okPages (fillerCalls N s log) = Filler.logSum log
  | [] => rfl
  | x :: log => by
    have := okPages_filler s log
    unfold fillerCalls Filler.logSum at *
    simp only [List.map_cons, okPages, PageTracker.okSum, this]

theorem okPages_region (s : HP) : ∀ log : HugeRegion.Log, okPages (regionCalls N s log) = PageTracker.okSum (log.map Prod.snd) * N
  | [] => by simp [regionCalls, okPages, PageTracker.okSum]
  | x :: log => by
    have := okPages_region s log
    unfold regionCalls at *
    simp only [List.map_cons, okPages, PageTracker.okSum]
    rw [this, Nat.add_mul]
    split <;> simp

/-- C22, C33: a release reports exactly the pages whose calls succeeded, on top of what the cache had released and of
what the filler had released earlier and not yet reported. -/
theorem release_exact (hN : 2 ≤ N) (hH : 0 < H) (h : Reach H N mode s ob L) (num released : Nat) (x : RelArgs) :
    (∃ s' res m, s.step H N mode (.releaseRest num released x) = some (s', res) ∧ res.out = .released m ∧
      (m + s'.fill.unacc = released + okPages res.calls + s.fill.unacc)) ∧
    (∃ s' res m, s.step H N mode (.breakRest num released x) = some (s', res) ∧ res.out = .released m ∧
      (m + s'.fill.unacc = released + okPages res.calls + s.fill.unacc)) := by
  obtain ⟨ow, u, fg, rg, runs, k⟩ := h.k hN hH
  have h0 : 0 < N := by omega
  have hf : ∀ (t : HP) (desired rel : Nat) (x : RelArgs) (calls : List Call), t.fill = s.fill →
      ∃ s' res m, HP.releaseFiller N mode t desired rel x calls = some (s', res) ∧ res.out = .released m ∧
        (m + s'.fill.unacc + okPages calls = rel + okPages res.calls + s.fill.unacc) := by
    intro t desired rel x calls ht
    obtain ⟨f, log, e, -, -, -, -, hu, -, -, -⟩ := Filler.releasePages_exact hN k.fill desired x.adjusted x.skip x.okF
    unfold HP.releaseFiller
    rw [ht, e]
    refine ⟨_, _, _, rfl, rfl, ?_⟩
    show rel + (s.fill.unacc + Filler.logSum log) + f.unacc + okPages calls = rel + okPages (calls ++ fillerCalls N t log) + s.fill.unacc
    rw [okPages_append, okPages_filler, hu]; omega
  have hsub : ∀ (t : HP) (num rel : Nat) (x : RelArgs) (calls : List Call), t.fill = s.fill →
      ∃ s' res m, HP.releaseSub N mode t num rel x calls = some (s', res) ∧ res.out = .released m ∧
        (m + s'.fill.unacc + okPages calls = rel + okPages res.calls + s.fill.unacc) := by
    intro t num rel x calls ht
    unfold HP.releaseSub
    split
    · exact hf t _ _ x calls ht
    · exact ⟨_, _, _, rfl, rfl, by simp only []; rw [ht]; omega⟩
  constructor
  · show ∃ s' res m, HP.releaseRest H N mode s num released x = some (s', res) ∧ _
    unfold HP.releaseRest
    split
    · obtain ⟨rs, n, log, e, -, -, hn, -⟩ := HugeRegion.releasePages_exact h0 k.regs (num - released) x.adaptive false x.frac x.okR
      rw [e]
      obtain ⟨s', res, m, e1, e2, e3⟩ := hsub { s with regs := rs } num (released + n) x (regionCalls N s log) rfl
      refine ⟨s', res, m, e1, e2, ?_⟩
      rw [okPages_region, ← hn] at e3
      omega
    · obtain ⟨s', res, m, e1, e2, e3⟩ := hsub s num released x [] rfl
      exact ⟨s', res, m, e1, e2, by simp only [okPages] at e3; omega⟩
  · show ∃ s' res m, HP.breakRest H N mode s num released x = some (s', res) ∧ _
    unfold HP.breakRest
    obtain ⟨rs, n, log, e, -, -, hn, -⟩ := HugeRegion.releasePages_exact h0 k.regs (num - released) x.adaptive true x.frac x.okR
    rw [e]
    simp only []
    split
    · refine ⟨_, _, _, rfl, rfl, ?_⟩
      simp only []
      rw [okPages_region, ← hn]
    · obtain ⟨s', res, m, e1, e2, e3⟩ := hf { s with regs := rs } (num - (released + n)) (released + n) { x with adjusted := none } (regionCalls N s log) rfl
      refine ⟨s', res, m, e1, e2, ?_⟩
      rw [okPages_region, ← hn] at e3
      omega

/-! ### A concrete history

Hugepages of 8 pages, regions of 4 hugepages. -/

/-- Checkable conditions that imply `Ev.Pre`. -/
def sysB (ob : List Rng) (n : Nat) : Option Rng → Bool
  | none => true
  | some r => decide (n ≤ r.n ∧ r.s ≠ 0) && ob.all fun q => decide (q.s + q.n ≤ r.s ∨ r.s + r.n ≤ q.s)

def preB (H N : Nat) (ob : List Rng) (L : List Run) (s : HP) : Ev → Bool
  | .new n _ dense _ _ sys1 sys2 _ _ => decide (0 < n ∧ dense = false) && sysB ob H sys1 && sysB ob (hlFromPages N n) sys2
  | .newAligned n al _ dense _ _ sys1 sys2 _ _ =>
    decide (0 < n ∧ al ≤ N ∧ dense = false) && sysB ob H sys1 && sysB ob (hlFromPages N n) sys2
  | .refillDone i => decide (i < s.refills.length)
  | .delete r _ _ _ => decide (r ∈ L)
  | .releaseCached _ _ => true
  | .releaseRest _ _ _ => true
  | .breakRest _ _ _ => true
  | .cacheAnswer i _ => decide (i < s.cache.inflight.length)
  | .putAnswer i _ _ _ => decide (i < s.puts.length)
  | _ => false

theorem sysB_ok {ob : List Rng} {n : Nat} {sys : Option Rng} (h : sysB ob n sys = true) : SysOK ob n sys := by
  intro r hr
  subst hr
  simp only [sysB, Bool.and_eq_true, decide_eq_true_eq, List.all_eq_true] at h
  refine ⟨h.1.1, h.1.2, ?_⟩
  rintro p ⟨p1, p2⟩ ⟨q, hq, q1, q2⟩
  have := h.2 q hq
  omega

theorem preB_ok {s : HP} {e : Ev} (h : preB H N ob L s e = true) : e.Pre H N ob L s := by
  cases e <;> simp only [preB, Ev.Pre, Bool.and_eq_true, decide_eq_true_eq] at h ⊢ <;> try exact h
  · exact ⟨h.1.1.1, by simp [h.1.1.2], sysB_ok h.1.2, sysB_ok h.2⟩
  · exact ⟨h.1.1.1, h.1.1.2.1, by simp [h.1.1.2.2], sysB_ok h.1.2, sysB_ok h.2⟩
  all_goals cases h

/-- Run a list of events, checking the rules. -/
def runAll (H N : Nat) (mode : Bool) : HP → List Rng → List Run → List Ev → Option (HP × List Rng × List Run × List Res)
  | s, ob, L, [] => some (s, ob, L, [])
  | s, ob, L, e :: es =>
    if preB H N ob L s e then
      match s.step H N mode e with
      | none => none
      | some (s', r) =>
        match runAll H N mode s' (r.got ++ ob) (live' L e r.out) es with
        | none => none
        | some (t, ob', L', rs) => some (t, ob', L', r :: rs)
    else none

theorem runAll_reach : ∀ (es : List Ev) {s : HP} {ob : List Rng} {L : List Run} {x : HP × List Rng × List Run × List Res},
    Reach H N mode s ob L → runAll H N mode s ob L es = some x → Reach H N mode x.1 x.2.1 x.2.2.1
  | [], s, ob, L, x, h, e => by simp only [runAll, Option.some.injEq] at e; subst e; exact h
  | ev :: es, s, ob, L, x, h, e => by
    unfold runAll at e
    split at e
    · next hp =>
      cases hs : s.step H N mode ev with
      | none => rw [hs] at e; cases e
      | some y =>
        obtain ⟨s', r⟩ := y
        rw [hs] at e
        simp only [] at e
        cases hr : runAll H N mode s' (r.got ++ ob) (live' L ev r.out) es with
        | none => rw [hr] at e; cases e
        | some z =>
          obtain ⟨t, ob', L', rs⟩ := z
          rw [hr] at e
          cases e
          have := runAll_reach es (h.step ev (preB_ok hp) hs) hr
          exact this
    · cases e

def start : HP := HP.init 8 false fun _ => HugeRegion.R.new 4 8 0

/-- Three pages (a new hugepage); eleven pages (one hugepage and a donated tail); two pages; four pages in the slack of the
tail; nine pages from a new region. -/
def story : List Ev :=
  [.new 3 1 false false false none (some ⟨10, 8⟩) 0 0, .refillDone 0,
   .new 11 1 false false false none none 0 0, .new 2 1 false false false none none 0 0,
   .new 4 1 false false false none none 0 0,
   .new 9 1 false true false (some ⟨40, 4⟩) none 0 0]

/-- Then the eleven pages are returned: the tail stays, abandoned; then the other tenants of hugepages 10 and 12. -/
def story2 : List Ev := story ++ [.delete ⟨88, 11, 1, true⟩ false 0 (fun _ => true)]
def story3 : List Ev :=
  story2 ++ [.delete ⟨99, 4, 1, false⟩ false 0 (fun _ => true), .delete ⟨83, 2, 1, false⟩ false 0 (fun _ => true)]

example : (runAll 4 8 false start [] [] story).map (fun x => x.2.2.2.map Res.out) =
    some [.waiting, .run ⟨80, 3, 1, false⟩ true, .run ⟨88, 11, 1, true⟩ true, .run ⟨83, 2, 1, false⟩ false,
      .run ⟨99, 4, 1, false⟩ false, .run ⟨104, 9, 1, false⟩ true] := by decide +kernel
/-- Obtained: hugepages 10 to 17; donated tail 12 with three abandoned pages; nothing waits. -/
example : (runAll 4 8 false start [] [] story2).map (fun x => (x.2.1, x.2.2.1.map Run.p, x.1.donated, x.1.abandoned, x.1.pending)) =
    some ([⟨10, 8⟩], [104, 99, 83, 80], 1, 3, 0) := by decide +kernel
example : (runAll 4 8 false start [] [] story2).map (fun x => (x.1.pageStatus 4 8 12 2, x.1.pageStatus 4 8 12 3, x.1.pageStatus 4 8 13 0,
    x.1.pageStatus 4 8 13 1, x.1.pageStatus 4 8 11 0)) = some (false, true, true, true, false) := by decide +kernel
/-- 64 pages: 12 in use, 28 free, 24 unmapped. -/
example : (runAll 4 8 false start [] [] story3).map (fun x => ((x.2.2.1.map Run.n).sum,
    (x.1.stats 4 8).map fun st => (st.system, st.free, st.unmapped))) = some (12, some (64, 28, 24)) := by decide +kernel
/-- The hypotheses of the theorems are met by the state after the story: it is reachable, with five runs in use. -/
example : ∃ s ob L, Reach 4 8 false s ob L ∧ L.length = 5 := by
  have h : ((runAll 4 8 false start [] [] story).map fun x => x.2.2.1.length) = some 5 := by decide +kernel
  cases hr : runAll 4 8 false start [] [] story with
  | none => rw [hr] at h; cases h
  | some x =>
    rw [hr] at h
    exact ⟨x.1, x.2.1, x.2.2.1, runAll_reach story (Reach.init false _) hr, by simpa using h⟩

def relAll : RelArgs := ⟨true, 0, true, false, 0, none, fun _ => false, fun _ _ => true, fun _ _ => true⟩
/-- A release that breaks hugepages: the free hugepages of the region and the free pages of the filler's hugepages go back;
the reported number is the number of pages of the calls. -/
example : (runAll 4 8 false start [] [] (story2 ++ [.breakRest 100 0 relAll])).map
    (fun x => x.2.2.2.getLast?.map fun r => (r.out, okPages r.calls, r.calls.length)) = some (some (.released 7, 7, 3)) := by decide +kernel

end Verif.PageHeap
