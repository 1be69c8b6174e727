import Verif.Filler.Treat
/-! The invariant for all histories; facts behind the statistics. -/
namespace Verif.Filler
open Verif.Bitmap Verif.RangeTracker Verif.PageTracker Verif.HintedLists

variable {N : Nat} {mode : Bool}

theorem dense_one {dense : Bool} {n : Nat} (h : dense = false ∨ n = 1) : dense = true → n = 1 := by
  intro hd
  rcases h with h | h
  · rw [hd] at h; simp at h
  · exact h

/-- Every reachable filler keeps the invariant. -/
theorem Reach.k (hN : 2 ≤ N) {s : F} {g : Gh} (h : Reach N mode s g) :
    K N mode s g ∧ ∀ A B, g.treat = some (A, B) → B.Nodup := by
  induction h with
  | init => exact ⟨K.init, by intro A B e; simp [Gh.init] at e⟩
  | contribute id loc n objs index u donated dense _ hno hget hdon hden hc ih =>
    obtain ⟨s1, e, hk, _⟩ := contribute_spec (N := N) (mode := mode) ih.1 hno hget hdon hden
    rw [hc] at e
    cases e
    exact ⟨hk, ih.2⟩
  | full n objs dense _ e ih =>
    have hpre : 0 < n ∧ (dense = false ∨ n = 1) ∧ n < N := by
      apply Classical.byContradiction; intro hc; unfold tryGet at e; rw [if_neg hc] at e; simp at e
    rcases tryGet_spec (objs := objs) ih.1 hpre.1 hpre.2.2 (dense_one hpre.2.1) with
      ⟨e', _⟩ | ⟨s', id, index, w, e', _⟩
    · rw [e] at e'; cases e'; exact ih
    · rw [e] at e'; simp at e'
  | get n objs dense id index rel _ e ih =>
    have hpre : 0 < n ∧ (dense = false ∨ n = 1) ∧ n < N := by
      apply Classical.byContradiction; intro hc; unfold tryGet at e; rw [if_neg hc] at e; simp at e
    rcases tryGet_spec (objs := objs) ih.1 hpre.1 hpre.2.2 (dense_one hpre.2.1) with
      ⟨e', _⟩ | ⟨s', id', index', w, e', _, _, _, _, hk, _⟩
    · rw [e] at e'; simp at e'
    · rw [e] at e'
      simp only [Option.some.injEq, Prod.mk.injEq] at e'
      obtain ⟨rfl, rfl, hi, rfl⟩ := e'
      have : index = index' := by omega
      subst this
      exact ⟨hk, ih.2⟩
  | put id A a B r _ hl e ih =>
    obtain ⟨s', e', hk, _⟩ := put_full ih.1 hl
    rw [e] at e'
    simp only [Option.some.injEq, Prod.mk.injEq] at e'
    obtain ⟨rfl, rfl⟩ := e'
    exact ⟨hk, ih.2⟩
  | answer A id rest B ok r _ hf e ih =>
    obtain ⟨s', e', hk, _⟩ := putAnswer_spec ih.1 hf ok
    rw [e] at e'
    simp only [Option.some.injEq, Prod.mk.injEq] at e'
    obtain ⟨rfl, _⟩ := e'
    exact ⟨hk, ih.2⟩
  | release desired adjusted skip ok total log _ e ih =>
    obtain ⟨s', log', e', hk, _⟩ := releasePages_spec ih.1 hN desired adjusted skip ok
    rw [e] at e'
    simp only [Option.some.injEq, Prod.mk.injEq] at e'
    obtain ⟨rfl, _⟩ := e'
    exact ⟨hk, ih.2⟩
  | treatBegin A B _ ht hA hB hnd ih =>
    obtain ⟨hk, _⟩ := treatBegin_spec ih.1 ht (fun id hid => Or.inl (hA id hid)) (fun id hid => Or.inl (hB id hid))
    refine ⟨hk, ?_⟩
    intro A' B' e
    simp only [Option.some.injEq, Prod.mk.injEq] at e
    rw [← e.2]; exact hnd
  | treatEnd A obs stale ok log _ ht hub e ih =>
    obtain ⟨s', log', e', hk, _⟩ := treatEnd_spec ih.1 ht (ih.2 _ _ ht) hub stale ok
    rw [e] at e'
    simp only [Option.some.injEq, Prod.mk.injEq] at e'
    obtain ⟨rfl, _⟩ := e'
    exact ⟨hk, by intro A B e; simp at e⟩
  | fetch _ ht ih => exact ⟨fetch_spec ih.1 ht, ih.2⟩

/-! ### Where a hugepage belongs -/

theorem chunk_iff {na : Nat} (h : 0 < na) (c : Nat) : Chunk na c ↔ c = chunkIdx na := by
  have hne : 2 * na - 1 ≠ 0 := by omega
  have h1 := Nat.log2_self_le hne
  have h2 := Nat.lt_log2_self (n := 2 * na - 1)
  have hsp : Chunk na (chunkIdx na) := by
    refine ⟨Nat.log2 (2 * na - 1), ?_, ?_, ?_⟩
    · rw [Nat.pow_succ] at h2; omega
    · intro e' he
      have : 2 ^ (e' + 1) ≤ 2 ^ Nat.log2 (2 * na - 1) := Nat.pow_le_pow_right (by omega) he
      rw [Nat.pow_succ] at this
      omega
    · unfold chunkIdx clz64; omega
  constructor
  · rintro ⟨e, a, b, rfl⟩
    obtain ⟨e', a', b', ec⟩ := hsp
    have : e = e' := by
      rcases Nat.lt_trichotomy e e' with hl | hl | hl
      · have := b' e hl; omega
      · exact hl
      · have := b e' hl; omega
    rw [ec, this]
  · rintro rfl; exact hsp

theorem index_iff {t : PT} (h : 0 < t.free.nallocs) (i : Nat) : Index N t i ↔ i = idxOf N t := by
  unfold Index idxOf
  cases t.dense with
  | true => simp
  | false =>
    simp only [Bool.false_eq_true, false_and, true_and, false_or, if_false]
    constructor
    · rintro ⟨c, hc, rfl⟩; rw [(chunk_iff h c).1 hc]
    · intro e; exact ⟨_, (chunk_iff h _).2 rfl, e⟩

theorem belongs_iff {t : PT} (h : V N t) (hur : t.free.nused + t.relCount ≤ N) (k : LK) (i : Nat) :
    Belongs N mode t k i ↔ place N mode t = (k, i) := by
  unfold Belongs place
  cases t.donated with
  | true =>
    simp only [true_and, if_true, Bool.true_eq_false, false_and, or_false, Prod.mk.injEq]
    constructor
    · rintro ⟨rfl, rfl⟩; exact ⟨rfl, rfl⟩
    · rintro ⟨rfl, rfl⟩; exact ⟨rfl, rfl⟩
  | false =>
    simp only [Bool.false_eq_true, false_and, false_or, true_and, if_false, Prod.mk.injEq]
    rw [index_iff h.pos]
    have hk : ((Whole mode t ∧ k = .regular t.dense) ∨
     (¬ Whole mode t ∧ t.free.nused + t.relCount < N ∧ k = .partialRel t.dense) ∨
     (¬ Whole mode t ∧ N ≤ t.free.nused + t.relCount ∧ k = .released t.dense)) ↔ kindOf N mode t = k := by
      unfold kindOf
      by_cases hw : Whole mode t
      · have hw' := hw
        unfold Whole at hw'
        rw [if_pos hw']
        simp only [hw, true_and, not_true, false_and, or_false]
        exact eq_comm
      · have hw' := hw
        unfold Whole at hw'
        rw [if_neg hw']
        simp only [hw, not_false_eq_true, true_and, false_and, false_or]
        unfold freePages
        by_cases hf : N - t.free.nused ≤ t.relCount
        · rw [if_pos hf]
          constructor
          · rintro (⟨a, _⟩ | ⟨_, rfl⟩)
            · omega
            · rfl
          · rintro rfl; exact Or.inr ⟨by omega, rfl⟩
        · rw [if_neg hf]
          constructor
          · rintro (⟨_, rfl⟩ | ⟨a, _⟩)
            · rfl
            · omega
          · rintro rfl; exact Or.inl ⟨by omega, rfl⟩
    rw [hk]
    constructor
    · rintro ⟨rfl, b⟩; exact ⟨b, rfl⟩
    · rintro ⟨b, rfl⟩; exact ⟨rfl, b⟩

/-! ### What is on the lists of one array -/

theorem on_kind {s : F} {g : Gh} (h : K N mode s g) (k : LK) (start : Nat) :
    (elems (s.hl k).lists start (nLists N k - start)).Perm
      (g.held.filter (fun id => decide (kd N mode (s.tr id) = k ∧ start ≤ (place N mode (s.tr id)).2))) := by
  rw [List.perm_ext_iff_of_nodup (elems_nodup (h.li.inv k) _ _) (h.held_nd.filter _)]
  intro x
  rw [mem_elems, List.mem_filter, decide_eq_true_eq]
  constructor
  · rintro ⟨i, h1, h2, h3⟩
    have := (h.li.mem k i x).1 h3
    unfold kd
    rw [this.2]
    exact ⟨this.1, rfl, h1⟩
  · rintro ⟨hx, hk, hs⟩
    have hl := place_lt (N := N) (mode := mode) (h.v hx)
    unfold kd at hk
    rw [hk] at hl
    exact ⟨_, hs, by omega, (h.li.mem k _ x).2 ⟨hx, by rw [← hk]⟩⟩

theorem size_kind {s : F} {g : Gh} (h : K N mode s g) (k : LK) :
    (s.hl k).size = sumOn (fun id => if kd N mode (s.tr id) = k then 1 else 0) g.held := by
  rw [(h.li.inv k).size]
  have := (on_kind h k 0).length_eq
  rw [Nat.sub_zero] at this
  rw [this]
  simp only [Nat.zero_le, and_true]
  induction g.held with
  | nil => rfl
  | cons x L ih =>
    rw [sumOn_cons, ← ih, List.filter_cons]
    by_cases hk : kd N mode (s.tr x) = k
    · simp [hk]; omega
    · simp [hk]

theorem sumOn_mul (f : Nat → Nat) (c : Nat) (L : List Nat) : sumOn f L * c = sumOn (fun x => f x * c) L := by
  induction L with
  | nil => simp [sumOn]
  | cons x L ih => rw [sumOn_cons, sumOn_cons, Nat.add_mul, ih]

theorem sumOn_sub {f k : Nat → Nat} {L : List Nat} (h : ∀ x ∈ L, k x ≤ f x) :
    sumOn f L - sumOn k L = sumOn (fun x => f x - k x) L ∧ sumOn k L ≤ sumOn f L := by
  induction L with
  | nil => simp [sumOn]
  | cons x L ih =>
    have h1 := h x (by simp)
    have h2 := ih (fun y hy => h y (by simp [hy]))
    simp only [sumOn_cons]
    omega

theorem sumOn_filter (f : Nat → Nat) (p : Nat → Bool) (L : List Nat) :
    sumOn f (L.filter p) = sumOn (fun x => if p x then f x else 0) L := by
  induction L with
  | nil => rfl
  | cons x L ih =>
    rw [List.filter_cons, sumOn_cons, ← ih]
    split
    · next hp => rw [sumOn_cons]
    · next hp => omega

/-- On the arrays of broken-up hugepages. -/
def onBroken (N : Nat) (mode : Bool) (t : PT) : Bool :=
  match kd N mode t with
  | .partialRel _ => true
  | .released _ => true
  | _ => false

theorem kd_dense {t : PT} {d : Bool} (h : kd N mode t = .released d ∨ kd N mode t = .partialRel d) : t.dense = d := by
  have hnd : kd N mode t ≠ .donated := by rcases h with h | h <;> rw [h] <;> simp
  have hp : place N mode t = (kd N mode t, (place N mode t).2) := rfl
  obtain ⟨_, p2, _⟩ := place_nd hp hnd
  apply kind_dense (N := N) (mode := mode)
  rw [p2]
  rcases h with h | h
  · exact Or.inr (Or.inr h)
  · exact Or.inr (Or.inl h)

/-! ### One hugepage's reported runs -/

theorem runs_rel {t : PT} {live : List Alloc} (hG : G N t live) {L : List (Nat × Nat × Bool)}
    (e : spanRuns N t.free.bits t.rel 0 = some L) :
    ((L.filter (fun x => x.2.2)).map (·.2.1)).sum = t.relCount ∧
    ((L.filter (fun x => !x.2.2)).map (·.2.1)).sum + t.relCount + t.free.nused = N := by
  obtain ⟨L', e', h1, h2, h3, h4, h5⟩ := spanRuns_of hG
  rw [e] at e'
  cases e'
  have hr : ((L.filter (fun x => x.2.2)).map (·.2.1)).sum = t.relCount := by
    have hs := runs_sum (p := bitAt t.rel) (N := N) ((L.filter (fun x => x.2.2)).map (fun x => (x.1, x.2.1))) 0 (by omega)
      (by
        intro x hx
        obtain ⟨y, hy, rfl⟩ := List.mem_map.1 hx
        exact ⟨by omega, (h1 y (List.mem_filter.1 hy).1).2⟩)
      (by rw [List.pairwise_map]; exact h2.filter _)
      (by
        intro j _ hj
        constructor
        · intro hp
          obtain ⟨x, hx, a, b⟩ := (h3 j).2 ⟨hj, hG.free j hp⟩
          exact ⟨_, List.mem_map.2 ⟨x, List.mem_filter.2 ⟨hx, (h4 x hx j a b).1 hp⟩, rfl⟩, a, b⟩
        · rintro ⟨x, hx, a, b⟩
          obtain ⟨y, hy, rfl⟩ := List.mem_map.1 hx
          rw [List.mem_filter] at hy
          exact (h4 y hy.1 j a b).2 hy.2)
    rw [List.map_map] at hs
    rw [hG.cnt]
    rw [Nat.sub_zero] at hs
    rw [← hs]; rfl
  refine ⟨hr, ?_⟩
  have : ∀ M : List (Nat × Nat × Bool), ((M.filter (fun x => x.2.2)).map (·.2.1)).sum +
      ((M.filter (fun x => !x.2.2)).map (·.2.1)).sum = (M.map (·.2.1)).sum := by
    intro M
    induction M with
    | nil => rfl
    | cons x M ih =>
      rw [List.filter_cons, List.filter_cons, List.map_cons, List.sum_cons, ← ih]
      cases x.2.2 <;> simp <;> omega
  have := this L
  omega

end Verif.Filler
