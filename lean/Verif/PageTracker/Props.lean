import Verif.PageTracker.Lemmas
/-!
The properties of one hugepage's tracker (C14; C13 for pages inside a hugepage).
-/
namespace Verif.PageTracker
open Verif.Bitmap Verif.RangeTracker

variable {N : Nat}

/-- Consecutive disjoint runs that cover exactly a set of pages have lengths that sum to its size. -/
theorem runs_sum {p : Nat → Bool} {N : Nat} : ∀ (L : List (Nat × Nat)) (idx : Nat), idx ≤ N →
    (∀ x ∈ L, idx ≤ x.1 ∧ x.1 + x.2 ≤ N) → L.Pairwise (fun a b => a.1 + a.2 ≤ b.1) →
    (∀ j, idx ≤ j → j < N → (p j = true ↔ ∃ x ∈ L, x.1 ≤ j ∧ j < x.1 + x.2)) →
    (L.map (·.2)).sum = cnt p idx (N - idx)
  | [], idx, hle, _, _, hp => by
      rw [cnt_false]
      · rfl
      · intro k a b
        have := hp k a (by omega)
        cases h : p k with
        | false => rfl
        | true => obtain ⟨x, hx, _⟩ := this.1 h; simp at hx
  | x :: L, idx, hle, hin, hord, hp => by
      obtain ⟨h1, h2⟩ := List.pairwise_cons.1 hord
      have hx := hin x (by simp)
      have ih := runs_sum L (x.1 + x.2) hx.2 (fun y hy => ⟨h1 y hy, (hin y (by simp [hy])).2⟩) h2 (by
        intro j a b
        rw [hp j (by omega) b]
        constructor
        · rintro ⟨y, hy, hj⟩
          rcases List.mem_cons.1 hy with rfl | hy
          · omega
          · exact ⟨y, hy, hj⟩
        · rintro ⟨y, hy, hj⟩; exact ⟨y, by simp [hy], hj⟩)
      have e : N - idx = (x.1 - idx) + (x.2 + (N - (x.1 + x.2))) := by omega
      rw [List.map_cons, List.sum_cons, ih, e, cnt_add, cnt_add,
        cnt_false (a := idx) (n := x.1 - idx), cnt_true (a := idx + (x.1 - idx)) (n := x.2)]
      · have : idx + (x.1 - idx) + x.2 = x.1 + x.2 := by omega
        rw [this]; omega
      · intro k a b
        exact (hp k (by omega) (by omega)).2 ⟨x, by simp, by omega, by omega⟩
      · intro k a b
        cases h : p k with
        | false => rfl
        | true =>
          obtain ⟨y, hy, hj⟩ := (hp k (by omega) (by omega)).1 h
          rcases List.mem_cons.1 hy with rfl | hy
          · omega
          · have := h1 y hy; omega

theorem accounting_of {t : PT} {live : List Alloc} (g : G N t live) :
    (∀ j, t.Used j ↔ ∃ a ∈ live, a.Has j) ∧
    (∀ a ∈ live, 0 < a.n ∧ a.i + a.n ≤ N) ∧
    live.Pairwise (fun a b => a.i + a.n ≤ b.i ∨ b.i + b.n ≤ a.i) ∧
    t.free.nused = (live.map Alloc.n).sum ∧ t.free.nallocs = live.length ∧ t.objects = (live.map Alloc.objs).sum ∧
    t.relCount = cnt (bitAt t.rel) 0 N ∧ t.free.nused + t.relCount ≤ N ∧ (∀ j, t.Rel j → j < N ∧ ¬ t.Used j) := by
  refine ⟨g.used_iff, ?_, ?_, ?_, ?_, g.objs, g.cnt, ?_, fun j hj => ⟨g.rel_lt hj, g.free j hj⟩⟩
  · intro a ha
    have := g.good.inside _ (List.mem_map.2 ⟨a, ha, rfl⟩)
    exact this
  · have := g.good.disjoint
    unfold Disjoint at this
    rw [List.pairwise_map] at this
    have hpos : ∀ a ∈ live, 0 < a.n := fun a ha => (g.good.inside _ (List.mem_map.2 ⟨a, ha, rfl⟩)).1
    refine List.Pairwise.imp_of_mem ?_ this
    intro a b ha hb hd
    apply Classical.byContradiction
    intro hc
    have h1 := hpos a ha
    have h2 := hpos b hb
    have := hd (max a.i b.i)
    apply this
    show (a.i ≤ max a.i b.i ∧ max a.i b.i < a.i + a.n) ∧ b.i ≤ max a.i b.i ∧ max a.i b.i < b.i + b.n
    omega
  · have h1 := g.good.nused
    rw [h1, List.map_map]; rfl
  · rw [g.good.nallocs, List.length_map]
  · have h1 := g.good.exact.used
    rw [h1, g.cnt]
    unfold cnt; rw [List.range_eq_range']
    have : ∀ L : List Nat, L.countP (bitAt t.free.bits) + L.countP (bitAt t.rel) ≤ L.length := by
      intro L
      induction L with
      | nil => simp
      | cons x L ih =>
        rw [List.countP_cons, List.countP_cons, List.length_cons]
        have := g.free x
        unfold PT.Rel PT.Used at this
        cases ha : bitAt t.rel x <;> cases hb : bitAt t.free.bits x <;> simp [ha, hb] at this ⊢ <;> omega
    have := this (List.range' 0 N)
    rw [List.length_range'] at this
    exact this

/-- C14: after any history, with any answers of the kernel, the tracker's books are exact.  A page is in use exactly
when it lies in a live run; live runs are non-empty, inside the hugepage and disjoint; the used-page, allocation and
object counts are the true ones; the released-page count is the number of pages recorded as released, and only free
pages are. -/
theorem accounting_exact {t : PT} {live : List Alloc} (h : Reach N t live) :
    (∀ j, t.Used j ↔ ∃ a ∈ live, a.Has j) ∧
    (∀ a ∈ live, 0 < a.n ∧ a.i + a.n ≤ N) ∧
    live.Pairwise (fun a b => a.i + a.n ≤ b.i ∨ b.i + b.n ≤ a.i) ∧
    t.free.nused = (live.map Alloc.n).sum ∧ t.free.nallocs = live.length ∧ t.objects = (live.map Alloc.objs).sum ∧
    t.relCount = cnt (bitAt t.rel) 0 N ∧ t.free.nused + t.relCount ≤ N ∧ (∀ j, t.Rel j → j < N ∧ ¬ t.Used j) := accounting_of h.G

/-- C14: an allocation succeeds whenever the request fits in the longest free run.  It is served first-fit from a
shortest run that fits, which is free; the reported number of unbacked pages is exactly the number of pages of the
run that were recorded as released, and those records are cleared; nothing else changes. -/
theorem get_exact {t : PT} {live : List Alloc} (h : Reach N t live) (n objs : Nat) :
    (0 < n ∧ n ≤ t.free.longestFree →
      ∃ t' index len, get N t n objs = some (t', t.firstPage N + index, cnt (bitAt t.rel) index n) ∧
        BestFit (bitAt t.free.bits) N n index len ∧ index + n ≤ N ∧
        (∀ a ∈ live, ∀ j, index ≤ j → j < index + n → ¬ a.Has j) ∧
        Reach N t' (⟨index, n, objs⟩ :: live) ∧
        (∀ j, t'.Rel j ↔ t.Rel j ∧ ¬ (index ≤ j ∧ j < index + n)) ∧
        t'.relCount + cnt (bitAt t.rel) index n = t.relCount ∧ t'.loc = t.loc) ∧
    (t.free.longestFree < n → get N t n objs = none) := by
  have g := h.G
  refine ⟨?_, fun hlt => get_none g hlt⟩
  rintro ⟨hn, hfit⟩
  obtain ⟨t', index, len, e, hle, hb, hnot, _, _, hrel, hc, _, _, f, r, c, o, ht⟩ := get_spec g objs hn hfit
  refine ⟨t', index, len, e, hb, hle, ?_, Reach.get n objs index _ h e, hrel, hc, by rw [ht]⟩
  intro a ha j h1 h2 hj
  exact hnot j h1 h2 ((g.used_iff j).2 ⟨a, ha, hj⟩)

/-- The longest free run the tracker advertises is exact. -/
theorem longestFree_exact {t : PT} {live : List Alloc} (h : Reach N t live) :
    LongestFree (bitAt t.free.bits) N t.free.longestFree := h.G.good.exact.longest

/-- C14: a live run can always be returned; exactly its pages become free, and they are not recorded as released. -/
theorem put_exact {t : PT} {A B : List Alloc} {a : Alloc} (h : Reach N t (A ++ a :: B)) :
    ∃ t', put N t (t.firstPage N + a.i) a.n a.objs = some t' ∧ Reach N t' (A ++ B) ∧
      (∀ j, t'.Used j ↔ t.Used j ∧ ¬ a.Has j) ∧ (∀ j, t'.Rel j ↔ t.Rel j) ∧
      (∀ j, a.Has j → ¬ t'.Rel j) ∧ t'.loc = t.loc := by
  have g := h.G
  obtain ⟨t', e, _, hu, hr, _, _, _, f, o, ht⟩ := put_spec g
  refine ⟨t', e, Reach.put A a B h e, hu, hr, ?_, by rw [ht]⟩
  intro j hj hrj
  exact g.free j ((hr j).1 hrj) ((g.used_iff j).2 ⟨a, by simp, hj⟩)

/-- C13, C14: releasing free pages never aborts and, whatever the kernel answers, the pages handed to the kernel are
exactly the free pages not yet released, each in exactly one call.  No page of a live run is among them.
A page is recorded as released exactly when it was before or its call succeeded; the returned count is the number of
pages newly recorded. -/
theorem releaseFree_exact {t : PT} {live : List Alloc} (h : Reach N t live) (ok : Nat → Bool) :
    ∃ t' count calls, releaseFree N t ok = some (t', count, calls) ∧ Reach N t' live ∧
      (∀ c ∈ calls, 0 < c.n ∧ c.i + c.n ≤ N) ∧ calls.Pairwise (fun a b => a.i + a.n ≤ b.i) ∧
      (∀ j, (∃ c ∈ calls, c.Has j) ↔ j < N ∧ ¬ t.Used j ∧ ¬ t.Rel j) ∧
      (∀ c ∈ calls, ∀ a ∈ live, ∀ j, c.Has j → ¬ a.Has j) ∧
      (∀ j, t'.Rel j ↔ t.Rel j ∨ ∃ c ∈ calls, c.ok = true ∧ c.Has j) ∧
      count = ((calls.filter (·.ok)).map Call.n).sum ∧ t'.relCount = t.relCount + count ∧
      (∀ j, t'.Used j ↔ t.Used j) ∧ t'.loc = t.loc := by
  have g := h.G
  obtain ⟨t', calls, e, _, h1, h2, h3, h4, h5, h6, r, c, u, gg, ht⟩ := releaseFree_spec g ok
  refine ⟨t', _, calls, e, Reach.release ok _ calls h e, h1, h2, h3, ?_, h4, ?_, h6, h5, by rw [ht]⟩
  · intro c hc a ha j hj haj
    exact ((h3 j).1 ⟨c, hc, hj⟩).2.1 ((g.used_iff j).2 ⟨a, ha, haj⟩)
  · clear h6 h5 h4 h3 h2 h1 e
    induction calls with
    | nil => rfl
    | cons c cs ih =>
      cases hc : c.ok <;> simp [okSum, hc, ih]

theorem releaseFree_all_of {t t' : PT} {live : List Alloc} (g : G N t live) {count : Nat} {calls : List Call}
    {ok : Nat → Bool} (e : releaseFree N t ok = some (t', count, calls)) (hok : ∀ c ∈ calls, c.ok = true) :
    (∀ j, t'.Rel j ↔ j < N ∧ ¬ t'.Used j) ∧ t'.free.nused + t'.relCount = N := by
  obtain ⟨t1, calls1, e1, g1, _, _, h3, h4, h5, _⟩ := releaseFree_spec g ok
  rw [e] at e1
  simp only [Option.some.injEq, Prod.mk.injEq] at e1
  obtain ⟨rfl, _, rfl⟩ := e1
  have hiff : ∀ j, t'.Rel j ↔ j < N ∧ ¬ t'.Used j := by
    intro j
    rw [h4 j, h5 j]
    constructor
    · rintro (a | ⟨c, hc, _, hj⟩)
      · exact ⟨g.rel_lt a, g.free j a⟩
      · have := (h3 j).1 ⟨c, hc, hj⟩
        exact ⟨this.1, this.2.1⟩
    · rintro ⟨a, b⟩
      by_cases hr : t.Rel j
      · exact Or.inl hr
      · obtain ⟨c, hc, hj⟩ := (h3 j).2 ⟨a, b, hr⟩
        exact Or.inr ⟨c, hc, hok c hc, hj⟩
  refine ⟨hiff, ?_⟩
  rw [g1.good.exact.used, g1.cnt]
  unfold cnt; rw [List.range_eq_range']
  have : ∀ L : List Nat, (∀ x ∈ L, x < N) → L.countP (bitAt t'.free.bits) + L.countP (bitAt t'.rel) = L.length := by
    intro L
    induction L with
    | nil => simp
    | cons x L ih =>
      intro hL
      rw [List.countP_cons, List.countP_cons, List.length_cons, ← ih (fun y hy => hL y (by simp [hy]))]
      have := hiff x
      have hx := hL x (by simp)
      unfold PT.Rel PT.Used at this
      cases ha : bitAt t'.rel x <;> cases hb : bitAt t'.free.bits x <;> simp [ha, hb, hx] at this ⊢ <;> omega
  have := this (List.range' 0 N) (fun x hx => by rw [List.mem_range'_1] at hx; omega)
  rw [List.length_range'] at this
  exact this

/-- When every call succeeds, every free page is recorded as released. -/
theorem releaseFree_all {t t' : PT} {live : List Alloc} (h : Reach N t live) {count : Nat} {calls : List Call}
    {ok : Nat → Bool} (e : releaseFree N t ok = some (t', count, calls)) (hok : ∀ c ∈ calls, c.ok = true) :
    (∀ j, t'.Rel j ↔ j < N ∧ ¬ t'.Used j) ∧ t'.free.nused + t'.relCount = N := releaseFree_all_of h.G e hok

/-- C14: marking pages the kernel reports as unbacked: never aborts, records exactly the free ones among them, and
returns how many records are new. -/
theorem markSubreleased_exact {t : PT} {live : List Alloc} (h : Reach N t live) {ub : List Word} (hub : WF N ub) :
    ∃ t' c, markSubreleased N t ub = some (t', c) ∧ Reach N t' live ∧
      (∀ j, t'.Rel j ↔ t.Rel j ∨ (j < N ∧ ¬ t.Used j ∧ bitAt ub j = true)) ∧
      (∀ j, t'.Used j ↔ t.Used j) ∧ t'.relCount = t.relCount + c := by
  obtain ⟨t', c, e, _, h1, h2, h3, _⟩ := markSubreleased_spec h.G hub
  exact ⟨t', c, e, Reach.subreleased ub c h hub e, h1, h2, h3⟩

theorem spanRuns_of {t : PT} {live : List Alloc} (g : G N t live) :
    ∃ L, spanRuns N t.free.bits t.rel 0 = some L ∧ (∀ x ∈ L, 0 < x.2.1 ∧ x.1 + x.2.1 ≤ N) ∧
      L.Pairwise (fun a b => a.1 + a.2.1 ≤ b.1) ∧
      (∀ j, (∃ x ∈ L, x.1 ≤ j ∧ j < x.1 + x.2.1) ↔ j < N ∧ ¬ t.Used j) ∧
      (∀ x ∈ L, ∀ j, x.1 ≤ j → j < x.1 + x.2.1 → (t.Rel j ↔ x.2.2 = true)) ∧
      (L.map (·.2.1)).sum + t.free.nused = N := by
  obtain ⟨L, e, h1, h2, h3, h4⟩ := spanRuns_spec g.good.exact.wf g.wf N 0 (by omega)
  have hiff : ∀ j, (∃ x ∈ L, x.1 ≤ j ∧ j < x.1 + x.2.1) ↔ j < N ∧ ¬ t.Used j := by
    intro j
    constructor
    · rintro ⟨x, hx, a, b⟩
      refine ⟨by have := h1 x hx; omega, ?_⟩
      unfold PT.Used
      rw [(h3 x hx j a b).1]; simp
    · rintro ⟨a, b⟩
      unfold PT.Used at b
      exact h4 j (by omega) a (by simpa using b)
  refine ⟨L, e, fun x hx => (h1 x hx).2, h2, hiff, ?_, ?_⟩
  · intro x hx j a b
    unfold PT.Rel
    rw [(h3 x hx j a b).2]
  · have hs := runs_sum (p := fun j => !bitAt t.free.bits j) (N := N) (L.map (fun x => (x.1, x.2.1))) 0 (by omega)
      (by
        intro x hx
        obtain ⟨y, hy, rfl⟩ := List.mem_map.1 hx
        exact ⟨by omega, (h1 y hy).2.2⟩)
      (by rw [List.pairwise_map]; exact h2)
      (by
        intro j _ hj
        have := hiff j
        unfold PT.Used at this
        constructor
        · intro hp
          obtain ⟨x, hx, hxj⟩ := this.2 ⟨hj, by simpa using hp⟩
          exact ⟨_, List.mem_map.2 ⟨x, hx, rfl⟩, hxj⟩
        · rintro ⟨x, hx, hxj⟩
          obtain ⟨y, hy, rfl⟩ := List.mem_map.1 hx
          simpa using (this.1 ⟨y, hy, hxj⟩).2)
    rw [List.map_map] at hs
    have e1 : (L.map (·.2.1)).sum = cnt (fun j => !bitAt t.free.bits j) 0 N := by
      rw [Nat.sub_zero] at hs; rw [← hs]; rfl
    rw [e1, g.good.exact.used]
    unfold cnt; rw [List.range_eq_range']
    have : ∀ M : List Nat, M.countP (fun j => !bitAt t.free.bits j) + M.countP (bitAt t.free.bits) = M.length := by
      intro M
      induction M with
      | nil => rfl
      | cons x M ih =>
        rw [List.countP_cons, List.countP_cons, List.length_cons, ← ih]
        cases bitAt t.free.bits x <;> simp <;> omega
    rw [this, List.length_range']

/-- C14: the runs reported to the statistics are non-empty, in order and disjoint, contain exactly the free pages,
each run entirely released or entirely backed; their lengths add up to the number of free pages. -/
theorem spanRuns_exact {t : PT} {live : List Alloc} (h : Reach N t live) :
    ∃ L, spanRuns N t.free.bits t.rel 0 = some L ∧ (∀ x ∈ L, 0 < x.2.1 ∧ x.1 + x.2.1 ≤ N) ∧
      L.Pairwise (fun a b => a.1 + a.2.1 ≤ b.1) ∧
      (∀ j, (∃ x ∈ L, x.1 ≤ j ∧ j < x.1 + x.2.1) ↔ j < N ∧ ¬ t.Used j) ∧
      (∀ x ∈ L, ∀ j, x.1 ≤ j → j < x.1 + x.2.1 → (t.Rel j ↔ x.2.2 = true)) ∧
      (L.map (·.2.1)).sum + t.free.nused = N := spanRuns_of h.G

/-! ### A concrete history (256 pages): two allocations, one freed, a release where the second call fails, and an
allocation over released pages. -/

def demo : Option (PT × List Nat × Nat × List Call) := do
  let t0 := PT.new 256 7 false
  let (t1, p1, _) ← get 256 t0 3 1
  let (t2, p2, _) ← get 256 t1 5 1
  let (t3, p3, _) ← get 256 t2 2 1
  let t4 ← put 256 t3 p2 5 1
  let (t5, n, calls) ← releaseFree 256 t4 (fun k => k == 0)
  let (t6, p4, u) ← get 256 t5 4 2
  pure (t6, [p1, p2, p3, p4, u, t6.relCount, t6.free.nused, t6.objects], n, calls)

example : demo.map (·.2) = some ([1792, 1795, 1800, 1795, 4, 1, 9, 4], 5, [⟨3, 5, true⟩, ⟨10, 246, false⟩]) := by
  decide +kernel

example : (demo.bind fun d => spanRuns 256 d.1.free.bits d.1.rel 0) = some [(7, 1, true), (10, 246, false)] := by
  decide +kernel

end Verif.PageTracker
