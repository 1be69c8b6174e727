import Verif.Lifetime.Inv
/-! C58: lifetime and event-trace profiles.  C59: the standard deviation they report. -/
namespace Verif.Lifetime

theorem stop_addAll (q : Prof) (T : Int) : q.stop T = addAll q.reports ((q.allocs.map (·.2)).map fun a => (a, notYet a T)) := by
  show q.allocs.foldl _ _ = List.foldl _ _ _
  rw [List.foldl_map, List.foldl_map]
  rfl

theorem Sees.perm {tr : Trace} {l : List (Nat × Info)} {w : Loc} {m : Mode} {k : Nat} {tr2 : Trace} {q : Prof} (h : Sees tr l w m k tr2 q) :
    (q.allocs.map (·.2)).Perm (open_ l w tr2) := by
  have hn : (open_ l w tr2).Nodup := by
    have : ((open_ l w tr2).map (·.handle)).Nodup := h.nodup.sublist ((List.filter_sublist).map _)
    exact List.Pairwise.imp (fun hne e => hne (by rw [e])) (List.pairwise_map.1 this)
  have hn' : (q.allocs.map (·.2)).Nodup := by
    refine List.pairwise_map.2 (List.Pairwise.imp_of_mem ?_ (List.pairwise_map.1 h.keys))
    intro a b ha hb hne e
    have h1 := ((h.allocs a.1 a.2).1 ha).2
    have h2 := ((h.allocs b.1 b.2).1 hb).2
    exact hne (by rw [← h1, ← h2, e])
  refine (List.perm_ext_iff_of_nodup hn' hn).2 fun r => ?_
  rw [List.mem_map]
  constructor
  · rintro ⟨x, hx, rfl⟩; exact ((h.allocs x.1 x.2).1 hx).1
  · intro hr; exact ⟨(r.handle, r), (h.allocs _ _).2 ⟨hr, rfl⟩, rfl⟩

theorem lives_perm {a b : List (Rec × Rec)} (h : a.Perm b) (k : Key × Key) (i : Nat) : (lives a k i).Perm (lives b k i) := h.filterMap _

theorem Low.perm {c : Cell} {xs ys : List Int} (h : Low c xs) (hp : xs.Perm ys) : Low c ys := ⟨h.1, by rw [← devs_perm hp]; exact h.2⟩

/-- The table of a profile that is stopped. -/
theorem stopped {tr : Trace} {s s' : St} {p : Nat} {T : Int} {o : Out} (h : Run tr s) (hs : step s (.stop p T) = some (s', o)) :
    ∃ tr0 m k tr1 l w tr2, ∃ σ : List Rec, tr = tr0 ++ .add p m k :: (tr1 ++ .seed p l w :: tr2) ∧ Seeded tr0 (tr0 ++ .add p m k :: tr1) l ∧
      σ.Perm (open_ l w tr2) ∧ o = .profile p (addAll ⟨m, evs m k, [], []⟩ (done l w tr2 ++ σ.map fun a => (a, notYet a T))) := by
  have hi := h.inv
  simp only [step] at hs
  split at hs
  · cases hs
  · rename_i hl
    split at hs
    · rename_i l0 q hu hq
      cases hs
      have := hi.prof p q hq
      rw [if_neg (fun hc => hl (by rw [hc]; rfl))] at this
      obtain ⟨tr0, m, k, tr1, l, w, tr2, h1, -, h3, h4⟩ := this
      refine ⟨tr0, m, k, tr1, l, w, tr2, q.allocs.map (·.2), h1, h3, h4.perm, ?_⟩
      rw [stop_addAll, h4.reports, ← addAll_append]
    · cases hs

/-- C58.  A profile that is stopped was started with the allocations then live (`Seeded`: each once, none that was deallocated before, all that were registered before and
not deallocated until the start was over).  A lifetimes profile has, for every pair of stacks and every case of same/different CPU, cache,
node and thread, exactly the count, the extremes and the mean of the lifetimes of the allocations it has seen: the time to the deallocation, or to the stop if there was none. -/
theorem profile_exact {tr : Trace} {s s' : St} {p : Nat} {T : Int} {o : Out} (h : Run tr s) (hs : step s (.stop p T) = some (s', o)) :
    ∃ tr0 m k tr1 l w tr2 t, tr = tr0 ++ .add p m k :: (tr1 ++ .seed p l w :: tr2) ∧ Seeded tr0 (tr0 ++ .add p m k :: tr1) l ∧ o = .profile p t ∧
      (m = .lifetimes → ∀ key i, Stats (t.cell key i) (lives (log l w tr2 T) key i)) := by
  obtain ⟨tr0, m, k, tr1, l, w, tr2, σ, h1, h2, h3, rfl⟩ := stopped h hs
  refine ⟨tr0, m, k, tr1, l, w, tr2, _, h1, h2, rfl, ?_⟩
  rintro rfl key i
  exact (cells_exact (evs .lifetimes k) _ key i).1.perm (lives_perm ((h3.map _).append_left _) key i)

/-- C58.  An event trace has the allocation and the deallocation of the first deallocations, then the allocations not freed, as many as fit: only the end
may be missing, and only if fewer than two places are left. -/
theorem trace_exact {tr : Trace} {s s' : St} {p : Nat} {T : Int} {o : Out} (h : Run tr s) (hs : step s (.stop p T) = some (s', o)) :
    ∃ tr0 m k tr1 l w tr2 t, tr = tr0 ++ .add p m k :: (tr1 ++ .seed p l w :: tr2) ∧ Seeded tr0 (tr0 ++ .add p m k :: tr1) l ∧ o = .profile p t ∧
      (m = .eventTrace → ∃ σ : List Rec, σ.Perm (open_ l w tr2) ∧ ∃ j ≤ (done l w tr2).length + σ.length,
        t.events = ((done l w tr2 ++ σ.map fun a => (a, notYet a T)).take j).flatMap shown ∧ t.events.length ≤ k ∧
          (j = (done l w tr2).length + σ.length ∨ k < t.events.length + 2)) := by
  obtain ⟨tr0, m, k, tr1, l, w, tr2, σ, h1, h2, h3, rfl⟩ := stopped h hs
  refine ⟨tr0, m, k, tr1, l, w, tr2, _, h1, h2, rfl, ?_⟩
  rintro rfl
  obtain ⟨j, a, b, c, d⟩ := events_exact (evs .eventTrace k) (done l w tr2 ++ σ.map fun a => (a, notYet a T))
  rw [List.length_append, List.length_map] at a d
  exact ⟨σ, h3, j, a, b, c, d⟩

/-- C58.  An allocation made while the profile runs is seen by it, with the CPU and the thread that made it; an allocation made before it
is, if it was registered when the start began and not deallocated until the start was over. -/
theorem known_complete {tr0 tr1 tr2 : Trace} {p : Nat} {m : Mode} {k : Nat} {l : List (Nat × Info)} {w : Loc}
    (hs : Seeded tr0 (tr0 ++ .add p m k :: tr1) l) {h : Nat} {i : Info} {w' : Loc} :
    (.malloc h i w' ∈ tr2 → ⟨h, i, w'⟩ ∈ known l w tr2) ∧
      (.malloc h i w' ∈ tr0 → .register h ∈ tr0 → .unregister h ∉ tr0 ++ .add p m k :: tr1 → ⟨h, i, w⟩ ∈ known l w tr2) := by
  constructor
  · intro hm
    exact List.mem_append_right _ (List.mem_filterMap.2 ⟨_, hm, rfl⟩)
  · intro hm hr hu
    exact List.mem_append_left _ (List.mem_map.2 ⟨(h, i), hs.2.1 h i w' hr hu (List.mem_append_left _ hm), rfl⟩)

/-- C58.  It sees nothing else: an allocation it has seen was made while it ran, or before with the same stack, size and time, and not deallocated
before the start began. -/
theorem known_sound {tr0 tr1 tr2 : Trace} {p : Nat} {m : Mode} {k : Nat} {l : List (Nat × Info)} {w : Loc}
    (hs : Seeded tr0 (tr0 ++ .add p m k :: tr1) l) {r : Rec} (hr : r ∈ known l w tr2) :
    .malloc r.handle r.info r.loc ∈ tr2 ∨
      r.loc = w ∧ (∃ w', .malloc r.handle r.info w' ∈ tr0 ++ .add p m k :: tr1) ∧ .unregister r.handle ∉ tr0 := by
  rcases List.mem_append.1 hr with hr | hr
  · obtain ⟨x, hx, rfl⟩ := List.mem_map.1 hr
    exact Or.inr ⟨rfl, (hs.2.2 x hx).2.2, (hs.2.2 x hx).2.1⟩
  · obtain ⟨e, he, hr⟩ := List.mem_filterMap.1 hr
    cases e with
    | malloc h i w' => cases hr; exact Or.inl he
    | _ => cases hr

theorem Run.alive {tr : Trace} {s : St} (h : Run tr s) (p : Nat) : ((∃ e ∈ tr, e.seeds p = true) → ∃ e ∈ tr, e.adds p = true) ∧
    ((∃ e ∈ tr, e.adds p = true) → (∀ e ∈ tr, e.stops p = false) → (s.prof p).isSome) := by
  induction h with
  | init => exact ⟨fun ⟨_, h, _⟩ => (by cases h), fun ⟨_, h, _⟩ => (by cases h)⟩
  | @step tr s s' e o hr hp hs ih =>
    constructor
    · rintro ⟨e', h1, h2⟩
      rcases List.mem_append.1 h1 with h1 | h1
      · exact added_snoc (ih.1 ⟨e', h1, h2⟩)
      · rw [List.mem_singleton.1 h1] at h2
        cases e with
        | seed p' l w =>
          cases beq_iff_eq.1 (show (p' == p) = true from h2)
          obtain ⟨tr0, m, k, tr1, rfl, -⟩ := hp
          exact ⟨.add p m k, List.mem_append_left _ (List.mem_append_right _ (List.mem_cons_self ..)), beq_self_eq_true p⟩
        | _ => cases h2
    · rintro ⟨e', h1, h2⟩ hst
      have ih2 : (∃ e ∈ tr, e.adds p = true) → (s.prof p).isSome := fun h => ih.2 h fun e he => hst e (List.mem_append_left _ he)
      have hi := hr.inv
      have hcases : (∃ e ∈ tr, Ev.adds p e = true) ∨ e.adds p = true := by
        rcases List.mem_append.1 h1 with h1 | h1
        · exact Or.inl ⟨e', h1, h2⟩
        · rw [List.mem_singleton.1 h1] at h2; exact Or.inr h2
      cases e with
      | malloc x i w =>
        have ih2 := ih2 (hcases.resolve_right fun h => by cases h)
        simp only [Lifetime.step] at hs
        split at hs
        · cases hs
        · cases hs; rw [each_prof s _ hi.listed, Option.isSome_map]; exact ih2
      | free x st t w =>
        have ih2 := ih2 (hcases.resolve_right fun h => by cases h)
        simp only [Lifetime.step] at hs
        split at hs
        · cases hs
        · cases hs; rw [each_prof s _ hi.listed, Option.isSome_map]; exact ih2
      | register x => cases hs; exact ih2 (hcases.resolve_right fun h => by cases h)
      | unregister x => cases hs; exact ih2 (hcases.resolve_right fun h => by cases h)
      | add p' m k =>
        simp only [Lifetime.step] at hs
        split at hs
        · cases hs
        · cases hs
          show (upd s.prof p' _ p).isSome
          by_cases he : p = p'
          · rw [he, upd_same]; rfl
          · rw [upd_ne _ _ he]; exact ih2 (hcases.resolve_right fun h => he (beq_iff_eq.1 (show (p' == p) = true from h)).symm)
      | seed p' l w =>
        have ih2 := ih2 (hcases.resolve_right fun h => by cases h)
        simp only [Lifetime.step] at hs
        split at hs
        · cases hs
          show (upd s.prof p' _ p).isSome
          by_cases he : p = p'
          · rw [← he, upd_same, Option.isSome_map]; exact ih2
          · rw [upd_ne _ _ he]; exact ih2
        · cases hs
      | stop p' t =>
        have ih2 := ih2 (hcases.resolve_right fun h => by cases h)
        have hne : p ≠ p' := by
          rintro rfl
          have := hst (.stop p t) (List.mem_append_right _ (List.mem_singleton.2 rfl))
          rw [show Ev.stops p (.stop p t) = true from beq_self_eq_true p] at this; cases this
        simp only [Lifetime.step] at hs
        split at hs
        · cases hs
        · split at hs
          · cases hs
            show (upd s.prof p' none p).isSome
            rw [upd_ne _ _ hne]; exact ih2
          · cases hs

theorem unlink_mem {p : Nat} : ∀ {l : List Nat}, p ∈ l → (unlink p l).isSome
  | q :: l, h => by
    simp only [unlink]
    by_cases he : q = p
    · rw [if_pos he]; rfl
    · rw [if_neg he, Option.isSome_map]; exact unlink_mem ((List.mem_cons.1 h).resolve_left fun h => he h.symm)

/-- C58.  A profile that was started can be stopped, once no other is being started: its removal finds it, whatever others were started and stopped since. -/
theorem stop_ok {tr : Trace} {s : St} {p : Nat} {T : Int} (h : Run tr s) (hp : Pre tr (.stop p T)) (hl : s.lock = none) :
    (step s (.stop p T)).isSome := by
  have h1 := (h.alive p).2 ((h.alive p).1 hp.1) hp.2
  have h2 := unlink_mem ((h.inv.listed p).2 h1)
  obtain ⟨q, hq⟩ := Option.isSome_iff_exists.1 h1
  obtain ⟨l, hl2⟩ := Option.isSome_iff_exists.1 h2
  simp only [step, hl, hq, hl2]
  rfl

/-! ### What `Iterate` makes of the table -/

theorem put_keys (f : (Nat → Cell) → (Nat → Cell)) (k : Key × Key) : ∀ t : List ((Key × Key) × (Nat → Cell)), (t.map (·.1)).Nodup →
    ((put f k t).map (·.1)).Nodup ∧ ∀ x, x ∈ (put f k t).map (·.1) ↔ x = k ∨ x ∈ t.map (·.1)
  | [], _ => ⟨List.nodup_cons.2 ⟨List.not_mem_nil, List.nodup_nil⟩, fun x => by simp [put]⟩
  | (k', v) :: t, h => by
    obtain ⟨h1, h2⟩ := List.nodup_cons.1 h
    simp only [put]
    by_cases hk : k' = k
    · rw [if_pos hk]
      refine ⟨h, fun x => ?_⟩
      simp only [List.map_cons, List.mem_cons, hk]
      exact ⟨Or.inr, fun h => h.elim Or.inl id⟩
    · rw [if_neg hk]
      obtain ⟨h3, h4⟩ := put_keys f k t h2
      simp only [List.map_cons, List.mem_cons, List.nodup_cons]
      refine ⟨⟨fun hc => ((h4 k').1 hc).elim hk h1, h3⟩, fun x => ?_⟩
      rw [h4]
      exact ⟨fun h => h.elim (fun a => Or.inr (Or.inl a)) fun h => h.imp id Or.inr, fun h => h.elim (fun a => Or.inr (Or.inl a)) fun h => h.imp id Or.inr⟩

theorem addTrace_keys (t : Table) (a d : Rec) (h : (t.table.map (·.1)).Nodup) : ((t.addTrace a d).table.map (·.1)).Nodup := by
  unfold Table.addTrace
  split
  · split <;> exact h
  · split
    · exact h
    · exact (put_keys _ _ _ h).1

theorem addAll_keys : ∀ (log : List (Rec × Rec)) (t : Table), (t.table.map (·.1)).Nodup → ((addAll t log).table.map (·.1)).Nodup
  | [], _, h => h
  | x :: log, t, h => addAll_keys log (t.addTrace x.1 x.2) (addTrace_keys t x.1 x.2 h)

theorem lookup_iff {α β : Type} [BEq α] [LawfulBEq α] [DecidableEq α] (x : α) : ∀ (q : List (α × β)), (q.map (·.1)).Nodup → ∀ r, q.lookup x = some r ↔ (x, r) ∈ q
  | [], _, r => ⟨fun h => (by cases h), fun h => (by cases h)⟩
  | y :: q, hn, r => by
    simp only [List.map_cons, List.nodup_cons] at hn
    rw [List.lookup_cons]
    by_cases hy : x = y.1
    · rw [show (x == y.1) = true from beq_iff_eq.2 hy]
      show some y.2 = some r ↔ _
      rw [Option.some.injEq, List.mem_cons]
      constructor
      · rintro rfl; left; rw [hy]
      · rintro (h | h)
        · rw [← h]
        · exact absurd (List.mem_map_of_mem (f := (·.1)) h) (by rw [hy]; exact hn.1)
    · rw [show (x == y.1) = false from beq_eq_false_iff_ne.2 hy]
      show q.lookup x = some r ↔ _
      rw [lookup_iff x q hn.2 r, List.mem_cons]
      exact ⟨Or.inr, fun h => h.resolve_left fun h => hy (by rw [← h])⟩

theorem allCases_nodup : (allCases.map fun c => computeIndex c.1 c.2).Nodup := by decide +kernel
theorem allCases_bound : ∀ c ∈ allCases, c.1 < 32 ∧ c.2 < 3 := by decide +kernel
theorem allCases_all : ∀ s < 32, ∀ r < 3, (s, r) ∈ allCases := by decide +kernel

theorem statusOf_lt (a b c d e : Bool) : statusOf a b c d e < 32 := by
  cases a <;> cases b <;> cases c <;> cases d <;> cases e <;> decide

/-- C58.  The profile reports an entry for a pair of stacks and a case just if it has seen such a lifetime, and one entry at most; every lifetime is in
some case; and the case of an entry tells whether CPU, virtual CPU, cache, node and thread of its allocations and deallocations were the same. -/
theorem report_exact (n : Nat) (log : List (Rec × Rec)) :
    let t := addAll ⟨.lifetimes, n, [], []⟩ log
    (∀ k c v, (k, c, v) ∈ t.cells ↔ c ∈ allCases ∧ lives log k (computeIndex c.1 c.2) ≠ [] ∧ v = t.cell k (computeIndex c.1 c.2)) ∧
    (t.cells.map fun e => (e.1, e.2.1)).Nodup ∧
    (∀ a d, ∃ c ∈ allCases, index a d = computeIndex c.1 c.2) ∧
    ∀ a d, ∀ c ∈ allCases, index a d = computeIndex c.1 c.2 →
      c.1.testBit 4 = (a.loc.cpu == d.loc.cpu) ∧ c.1.testBit 3 = (a.loc.vcpu == d.loc.vcpu) ∧ c.1.testBit 2 = (a.loc.l3 == d.loc.l3) ∧
        c.1.testBit 1 = (a.loc.numa == d.loc.numa) ∧ c.1.testBit 0 = (a.loc.thread == d.loc.thread) := by
  intro t
  have hk : (t.table.map (·.1)).Nodup := addAll_keys log _ List.nodup_nil
  have hcell : ∀ k f, (k, f) ∈ t.table → ∀ i, t.cell k i = f i := by
    intro k f hf i
    unfold Table.cell
    rw [(lookup_iff k t.table hk f).2 hf]; rfl
  have hcount : ∀ k i, (t.cell k i).count = 0 ↔ lives log k i = [] := by
    intro k i
    rw [(cells_exact n log k i).1.count, List.length_eq_zero_iff]
  refine ⟨fun k c v => ?_, ?_, fun a d => ?_, fun a d c hc h => ?_⟩
  · unfold Table.cells
    rw [List.mem_flatMap]
    constructor
    · rintro ⟨e, he, hm⟩
      obtain ⟨c', hc', hv⟩ := List.mem_filterMap.1 hm
      dsimp only at hv
      split at hv
      · cases hv
      · rename_i hne
        cases hv
        rw [← hcell e.1 e.2 he] at hne ⊢
        exact ⟨hc', fun hl => hne ((hcount _ _).2 hl), rfl⟩
    · rintro ⟨hc, hl, rfl⟩
      have hne : (t.cell k (computeIndex c.1 c.2)).count ≠ 0 := fun h => hl ((hcount _ _).1 h)
      cases hf : t.table.lookup k with
      | none => exact absurd (by unfold Table.cell; rw [hf]; rfl) hne
      | some f =>
        have hm := (lookup_iff k t.table hk f).1 hf
        refine ⟨(k, f), hm, List.mem_filterMap.2 ⟨c, hc, ?_⟩⟩
        rw [hcell k f hm] at hne ⊢
        dsimp only
        rw [if_neg hne]
  · unfold Table.cells
    rw [List.map_flatMap]
    have h2 : allCases.Nodup := List.Pairwise.imp (fun hne e => hne (by rw [e])) (List.pairwise_map.1 allCases_nodup)
    generalize t.table = tb at hk
    induction tb with
    | nil => exact List.nodup_nil
    | cons e tb ih =>
      obtain ⟨h3, h4⟩ := List.nodup_cons.1 hk
      rw [List.flatMap_cons, List.nodup_append]
      refine ⟨?_, ih h4, ?_⟩
      · rw [List.map_filterMap]
        refine List.Pairwise.filterMap _ ?_ h2
        intro a b hab x hx y hy e9
        dsimp only at hx hy
        split at hx
        · cases hx
        · split at hy
          · cases hy
          · cases hx; cases hy
            simp only [Prod.mk.injEq] at e9
            exact hab e9.2
      · intro x hx y hy e9
        obtain ⟨z, hz, rfl⟩ := List.mem_map.1 hx
        obtain ⟨e', he', hy⟩ := List.mem_flatMap.1 hy
        obtain ⟨z', hz', rfl⟩ := List.mem_map.1 hy
        obtain ⟨c, -, hz⟩ := List.mem_filterMap.1 hz
        obtain ⟨c', -, hz'⟩ := List.mem_filterMap.1 hz'
        dsimp only at hz hz'
        split at hz
        · cases hz
        · split at hz'
          · cases hz'
          · cases hz; cases hz'
            exact h3 (by show e.1 ∈ _; rw [show e.1 = e'.1 from (Prod.mk.inj e9).1]; exact List.mem_map_of_mem (f := (·.1)) he')
  · exact ⟨(_, _), allCases_all _ (statusOf_lt ..) _ (by decide : rpcOf 0 0 < 3), rfl⟩
  · have h1 := (allCases_bound c hc).2
    have h2 : statusOf (a.loc.cpu == d.loc.cpu) (a.loc.vcpu == d.loc.vcpu) (a.loc.l3 == d.loc.l3) (a.loc.numa == d.loc.numa) (a.loc.thread == d.loc.thread) * 3 + 2 =
      c.1 * 3 + c.2 := h
    have h3 : c.1 = statusOf (a.loc.cpu == d.loc.cpu) (a.loc.vcpu == d.loc.vcpu) (a.loc.l3 == d.loc.l3) (a.loc.numa == d.loc.numa) (a.loc.thread == d.loc.thread) := by
      omega
    rw [h3]
    cases (a.loc.cpu == d.loc.cpu) <;> cases (a.loc.vcpu == d.loc.vcpu) <;> cases (a.loc.l3 == d.loc.l3) <;> cases (a.loc.numa == d.loc.numa) <;>
      cases (a.loc.thread == d.loc.thread) <;> decide

/-- C58.  A lifetime is shown as 1 ns, or rounded down to a power of ten below a millisecond, or to whole milliseconds. -/
theorem bucketize_spec (x : Rat) :
    (x ≤ 1 → bucketize x = 1) ∧ (1 ≤ x → x < 1000000 → ∃ j ≤ 5, bucketize x = 10 ^ j ∧ (10 ^ j : Nat) ≤ x ∧ x < (10 ^ (j + 1) : Nat)) ∧
      (1000000 ≤ x → ∃ n : Nat, bucketize x = n * 1000000 ∧ (n * 1000000 : Nat) ≤ x ∧ x < ((n + 1) * 1000000 : Nat)) := by
  refine ⟨fun h => ?_, fun h1 h2 => ?_, fun h => ?_⟩
  · unfold bucketize
    rw [if_pos (by grind), if_pos h]
  · unfold bucketize
    rw [if_pos h2]
    by_cases h3 : x ≤ 1
    · rw [if_pos h3]; exact ⟨0, by decide, rfl, h1, by show x < (10 : Rat); grind⟩
    · rw [if_neg h3]
      by_cases h4 : x < 10
      · rw [if_pos h4]; exact ⟨0, by decide, rfl, h1, h4⟩
      · rw [if_neg h4]
        by_cases h5 : x < 100
        · rw [if_pos h5]; exact ⟨1, by decide, rfl, Rat.not_lt.1 h4, h5⟩
        · rw [if_neg h5]
          by_cases h6 : x < 1000
          · rw [if_pos h6]; exact ⟨2, by decide, rfl, Rat.not_lt.1 h5, h6⟩
          · rw [if_neg h6]
            by_cases h7 : x < 10000
            · rw [if_pos h7]; exact ⟨3, by decide, rfl, Rat.not_lt.1 h6, h7⟩
            · rw [if_neg h7]
              by_cases h8 : x < 100000
              · rw [if_pos h8]; exact ⟨4, by decide, rfl, Rat.not_lt.1 h7, h8⟩
              · rw [if_neg h8]; exact ⟨5, by decide, rfl, Rat.not_lt.1 h8, h2⟩
  · unfold bucketize
    rw [if_neg (Rat.not_lt.2 h)]
    have h0 : (0 : Int) ≤ (x / 1000000).floor := Rat.le_floor_iff.2 (by show (0 : Rat) ≤ x / 1000000; grind)
    have hc : (((x / 1000000).floor.toNat : Nat) : Rat) = ((x / 1000000).floor : Rat) := by
      rw [← Rat.intCast_natCast, Int.toNat_of_nonneg h0]
    refine ⟨_, rfl, ?_, ?_⟩
    · rw [Rat.natCast_mul, hc]
      have := Rat.floor_le (x / 1000000)
      show _ * (1000000 : Rat) ≤ x
      grind
    · rw [Rat.natCast_mul, Rat.natCast_add, hc]
      have := Rat.lt_floor_add_one (x / 1000000)
      rw [Rat.intCast_add] at this
      show x < (_ + (1 : Rat)) * (1000000 : Rat)
      have h1 : ((1 : Int) : Rat) = 1 := rfl
      rw [h1] at this
      grind

theorem bucketize_mono {x y : Rat} (h : x ≤ y) : bucketize x ≤ bucketize y := by
  by_cases hx : x < 1000000
  · have hb : bucketize x ≤ 100000 := by
      unfold bucketize
      rw [if_pos hx]
      repeat' split
      all_goals decide
    by_cases hy : y < 1000000
    · clear hb
      unfold bucketize
      rw [if_pos hx, if_pos hy]
      grind (splits := 20)
    · obtain ⟨n, h2, h3, h4⟩ := (bucketize_spec y).2.2 (Rat.not_lt.1 hy)
      have : 1 ≤ n := by
        rcases Nat.eq_zero_or_pos n with rfl | h5
        · exact absurd h4 hy
        · exact h5
      rw [h2]; omega
  · have hy : ¬ y < 1000000 := fun hc => hx (by grind)
    unfold bucketize
    rw [if_neg hx, if_neg hy]
    have : (x / 1000000).floor ≤ (y / 1000000).floor := Rat.floor_monotone (by grind)
    exact Nat.mul_le_mul_right _ (by omega)

theorem sum_bounds {m M : Int} : ∀ {xs : List Int}, (∀ x ∈ xs, m ≤ x) → (∀ x ∈ xs, x ≤ M) →
    (m : Rat) * xs.length ≤ sum xs ∧ sum xs ≤ (M : Rat) * xs.length
  | [], _, _ => by constructor <;> (show _ ≤ _; simp [sum])
  | y :: xs, h1, h2 => by
    obtain ⟨a, b⟩ := sum_bounds (fun x hx => h1 x (List.mem_cons_of_mem _ hx)) fun x hx => h2 x (List.mem_cons_of_mem _ hx)
    have c := Rat.intCast_le_intCast.2 (h1 y (List.mem_cons_self ..))
    have d := Rat.intCast_le_intCast.2 (h2 y (List.mem_cons_self ..))
    have e : ((xs.length + 1 : Nat) : Rat) = (xs.length : Rat) + 1 := by rw [Rat.natCast_add]; rfl
    show (m : Rat) * ((xs.length + 1 : Nat) : Rat) ≤ y + sum xs ∧ y + sum xs ≤ (M : Rat) * ((xs.length + 1 : Nat) : Rat)
    rw [e]
    constructor <;> grind

/-- C58.  The shortest lifetime shown is at most the average shown, and that at most the longest. -/
theorem reported_order {c : Cell} {xs : List Int} (h : Stats c xs) (hx : xs ≠ []) :
    ∃ m, c.min = some m ∧ bucketize m ≤ bucketize c.mean ∧ bucketize c.mean ≤ bucketize c.max := by
  have hmin : ∃ m, c.min = some m := by
    have : ∀ l : List Int, l ≠ [] → ∃ m, m ∈ l ∧ ∀ x ∈ l, m ≤ x := by
      intro l hl
      cases hm : l.min? with
      | none => exact absurd (List.min?_eq_none_iff.1 hm) hl
      | some m => exact ⟨m, List.min?_mem hm, fun x hx => (List.le_min?_iff hm).1 (Int.le_refl _) x hx⟩
    obtain ⟨m, hm⟩ := this xs hx
    exact ⟨m, (h.lo m).2 hm⟩
  obtain ⟨m, hm⟩ := hmin
  obtain ⟨a, b⟩ := sum_bounds ((h.lo m).1 hm).2 h.hi.1
  rw [← h.mean, ← h.count] at a b
  have hpos : (0 : Rat) < c.count := Rat.natCast_pos.2 (by rw [h.count]; exact List.length_pos_iff.2 hx)
  exact ⟨m, hm, bucketize_mono (Rat.le_of_mul_le_mul_right a hpos), bucketize_mono (Rat.le_of_mul_le_mul_right b hpos)⟩

/-! ### C59: the standard deviation -/

/-- The square of the standard deviation reported, deallocation_profiler.cc:765-767. -/
def Cell.dev2 (c : Cell) : Rat := if 0 ≤ c.var / c.count then c.var / c.count else 0

/-- The square of the standard deviation of `xs`, whose mean is `m`. -/
def variance (m : Rat) (xs : List Int) : Rat := devs m xs / (xs.length : Rat)

theorem inv_nonneg (n : Nat) : (0 : Rat) ≤ (n : Rat)⁻¹ := by
  rcases Nat.eq_zero_or_pos n with rfl | h
  · rw [show ((0 : Nat) : Rat) = 0 from rfl, Rat.inv_zero]; exact Rat.le_refl
  · exact Rat.le_of_lt (Rat.inv_pos.2 (Rat.natCast_pos.2 h))

/-- C59 is false: whatever was recorded, the square of the standard deviation reported is at most half of what it should be, and so too small unless all lifetimes are the
same. -/
theorem deviation_low (n : Nat) (log : List (Rec × Rec)) (k : Key × Key) (i : Nat) :
    let c := (addAll ⟨.lifetimes, n, [], []⟩ log).cell k i
    let xs := lives log k i
    0 ≤ c.dev2 ∧ 2 * c.dev2 ≤ variance c.mean xs ∧ ∀ x ∈ xs, ∀ y ∈ xs, x ≠ y → c.dev2 < variance c.mean xs := by
  intro c xs
  obtain ⟨hs, h1, h2⟩ : Good c xs := cells_exact n log k i
  have hd : c.dev2 = c.var / c.count := by
    unfold Cell.dev2
    rw [if_pos]
    rw [Rat.div_def]
    exact Rat.mul_nonneg h1 (inv_nonneg _)
  have hinv : (0 : Rat) ≤ (c.count : Rat)⁻¹ := inv_nonneg _
  have h3 : 2 * c.dev2 ≤ variance c.mean xs := by
    rw [hd]
    unfold variance
    rw [← hs.count, Rat.div_def, Rat.div_def]
    have := Rat.mul_le_mul_of_nonneg_right h2 hinv
    grind
  have h0 : 0 ≤ c.dev2 := by rw [hd, Rat.div_def]; exact Rat.mul_nonneg h1 hinv
  refine ⟨h0, h3, fun x hx y hy hne => ?_⟩
  have hdp : devs c.mean xs ≠ 0 := by
    intro hz
    have a := devs_zero hz x hx
    have b := devs_zero hz y hy
    exact hne (Rat.intCast_inj.1 (a.trans b.symm))
  have hdn := devs_nonneg c.mean xs
  have hpos : (0 : Rat) < c.count := Rat.natCast_pos.2 (by rw [hs.count]; exact List.length_pos_of_mem hx)
  have hip : (0 : Rat) < (c.count : Rat)⁻¹ := Rat.inv_pos.2 hpos
  have hv : 0 < variance c.mean xs := by
    unfold variance
    rw [← hs.count, Rat.div_def]
    exact Rat.mul_pos (by grind) hip
  grind

/-- C59, what is left of it: lifetimes that are all the same are reported without deviation. -/
theorem deviation_partial (n : Nat) (log : List (Rec × Rec)) (k : Key × Key) (i : Nat) (x : Int)
    (h : ∀ y ∈ lives log k i, y = x) :
    ((addAll ⟨.lifetimes, n, [], []⟩ log).cell k i).dev2 = variance ((addAll ⟨.lifetimes, n, [], []⟩ log).cell k i).mean (lives log k i) := by
  obtain ⟨h1, h2, -⟩ := deviation_low n log k i
  obtain ⟨hs, -⟩ : Good _ _ := cells_exact n log k i
  generalize (addAll ⟨.lifetimes, n, [], []⟩ log).cell k i = c at *
  generalize lives log k i = xs at *
  have hz : devs c.mean xs = 0 := by
    cases xs with
    | nil => rfl
    | cons y xs =>
      have hall : ∀ (l : List Int), (∀ y ∈ l, y = x) → sum l = (x : Rat) * l.length ∧ ∀ m, m = (x : Rat) → devs m l = 0 := by
        intro l
        induction l with
        | nil => intro _; exact ⟨by show (0 : Rat) = x * ((0 : Nat) : Rat); grind, fun _ _ => rfl⟩
        | cons z l ih =>
          intro hl
          obtain ⟨a, b⟩ := ih fun y hy => hl y (List.mem_cons_of_mem _ hy)
          have e : ((l.length + 1 : Nat) : Rat) = (l.length : Rat) + 1 := by rw [Rat.natCast_add]; rfl
          rw [hl z (List.mem_cons_self ..)]
          refine ⟨?_, fun m hm => ?_⟩
          · show (x : Rat) + sum l = x * ((l.length + 1 : Nat) : Rat)
            rw [a, e]; grind
          · show ((x : Rat) - m) * (x - m) + devs m l = 0
            rw [b m hm, hm]; grind
      obtain ⟨a, b⟩ := hall _ h
      refine b _ ?_
      have hm := hs.mean
      rw [a, ← hs.count] at hm
      have hne : (c.count : Rat) ≠ 0 := fun h0 => by
        have := Rat.natCast_inj.1 (h0.trans (rfl : (0 : Rat) = ((0 : Nat) : Rat)))
        rw [hs.count] at this; cases this
      grind
  unfold variance at h2 ⊢
  rw [hz] at h2 ⊢
  rw [Rat.div_def, Rat.zero_mul] at h2 ⊢
  grind

/-! ### A history -/

def seededB (tr0 tr : Trace) (l : List (Nat × Info)) : Bool :=
  decide (l.map (·.1)).Nodup &&
  tr.all (fun e => match e with
    | .malloc h i _ => !(decide (.register h ∈ tr0)) || decide (.unregister h ∈ tr) || decide ((h, i) ∈ l)
    | _ => true) &&
  l.all fun x => decide (.register x.1 ∈ tr) && !decide (.unregister x.1 ∈ tr0) && tr.any fun e => match e with
    | .malloc h i _ => h == x.1 && i == x.2
    | _ => false

theorem seededB_ok {tr0 tr : Trace} {l : List (Nat × Info)} (h : seededB tr0 tr l = true) : Seeded tr0 tr l := by
  obtain ⟨h12, h3⟩ := (Bool.and_eq_true_iff ..).1 h
  obtain ⟨h1, h2⟩ := (Bool.and_eq_true_iff ..).1 h12
  refine ⟨of_decide_eq_true h1, fun h i w hr hu hm => ?_, fun x hx => ?_⟩
  · have := List.all_eq_true.1 h2 _ hm
    dsimp only at this
    rw [decide_eq_true hr, decide_eq_false hu] at this
    exact of_decide_eq_true (by simpa using this)
  · have := List.all_eq_true.1 h3 x hx
    obtain ⟨h12, h3⟩ := (Bool.and_eq_true_iff ..).1 this
    obtain ⟨h1, h2⟩ := (Bool.and_eq_true_iff ..).1 h12
    refine ⟨of_decide_eq_true h1, fun hc => (by rw [decide_eq_true hc] at h2; cases h2), ?_⟩
    obtain ⟨e, he, hm⟩ := List.any_eq_true.1 h3
    cases e with
    | malloc h i w =>
      obtain ⟨a, b⟩ := (Bool.and_eq_true_iff ..).1 hm
      rw [beq_iff_eq] at a b
      subst a; subst b
      exact ⟨w, he⟩
    | _ => cases hm

def preB (tr : Trace) : Ev → Bool
  | .malloc h _ _ => tr.all fun e => !e.mallocs h
  | .register h => tr.any (·.mallocs h) && !decide (.register h ∈ tr)
  | .unregister h => decide (.register h ∈ tr) && !decide (.unregister h ∈ tr)
  | .free h _ _ _ => decide (.unregister h ∈ tr) && tr.all fun e => !e.frees h
  | .add p _ _ => tr.all fun e => !e.adds p
  | .seed p l _ => (List.range tr.length).any fun n => match tr.drop n with
    | .add p' _ _ :: _ => p' == p && seededB (tr.take n) tr l
    | _ => false
  | .stop p _ => tr.any (·.seeds p) && tr.all fun e => !e.stops p

theorem all_not {f : Ev → Bool} {tr : Trace} (h : (tr.all fun e => !f e) = true) : ∀ e ∈ tr, f e = false := by
  intro e he
  have := List.all_eq_true.1 h e he
  cases hf : f e with
  | false => rfl
  | true => rw [hf] at this; cases this

theorem not_dec {P : Prop} [Decidable P] (h : (!decide P) = true) : ¬P := fun hc => by rw [decide_eq_true hc] at h; cases h

theorem preB_ok {tr : Trace} {e : Ev} (h : preB tr e = true) : Pre tr e := by
  cases e with
  | malloc x i w => exact all_not h
  | register x =>
    obtain ⟨h1, h2⟩ := (Bool.and_eq_true_iff ..).1 h
    exact ⟨List.any_eq_true.1 h1, not_dec h2⟩
  | unregister x =>
    obtain ⟨h1, h2⟩ := (Bool.and_eq_true_iff ..).1 h
    exact ⟨of_decide_eq_true h1, not_dec h2⟩
  | free x st t w =>
    obtain ⟨h1, h2⟩ := (Bool.and_eq_true_iff ..).1 h
    exact ⟨of_decide_eq_true h1, all_not h2⟩
  | add p m k => exact all_not h
  | seed p l w =>
    obtain ⟨n, -, hn⟩ := List.any_eq_true.1 h
    cases hd : tr.drop n with
    | nil => rw [hd] at hn; cases hn
    | cons e tr1 =>
      rw [hd] at hn
      cases e with
      | add p' m k =>
        obtain ⟨h1, h2⟩ := (Bool.and_eq_true_iff ..).1 hn
        rw [beq_iff_eq] at h1; subst h1
        exact ⟨tr.take n, m, k, tr1, by rw [← hd, List.take_append_drop], seededB_ok h2⟩
      | _ => cases hn
  | stop p t =>
    obtain ⟨h1, h2⟩ := (Bool.and_eq_true_iff ..).1 h
    exact ⟨List.any_eq_true.1 h1, all_not h2⟩

def runAll : Trace → St → List Ev → Option (Trace × St)
  | tr, s, [] => some (tr, s)
  | tr, s, e :: es => if preB tr e then match step s e with
      | some (s', _) => runAll (tr ++ [e]) s' es
      | none => none
    else none

theorem runAll_ok : ∀ {es : List Ev} {tr tr' : Trace} {s s' : St}, runAll tr s es = some (tr', s') → Run tr s → Run tr' s' ∧ tr' = tr ++ es
  | [], _, _, _, _, h, hr => by cases h; exact ⟨hr, (List.append_nil _).symm⟩
  | e :: es, tr, tr', s, s', h, hr => by
    simp only [runAll] at h
    split at h
    · rename_i hp
      split at h
      · rename_i s1 o hs
        obtain ⟨h1, h2⟩ := runAll_ok h (Run.step hr (preB_ok hp) hs)
        exact ⟨h1, by rw [h2, List.append_assoc]; rfl⟩
      · cases h
    · cases h

def locA : Loc := ⟨1, 1, 0, 0, 100⟩
def locB : Loc := ⟨5, 5, 1, 1, 999⟩
def infoA : Info := ⟨[7], 1, 64, 0⟩
def infoB (t : Int) : Info := ⟨[9, 8], 2, 128, t⟩

/-- Allocation 0 is registered, 1 is not yet; a profile and an event trace are started by another thread; 2 and 3 are allocated and freed; 0 and 1 are freed; 4 stays. -/
def storyEvs : List Ev :=
  [.malloc 0 infoA locA, .register 0, .malloc 1 infoA locA,
   .add 0 .lifetimes 0, .register 1, .seed 0 [(0, infoA)] locB, .add 1 .eventTrace 6, .seed 1 [(0, infoA), (1, infoA)] locB,
   .malloc 2 (infoB 10) locA, .register 2, .unregister 2, .free 2 [3] 20 locA,
   .malloc 3 (infoB 15) locA, .register 3, .unregister 3, .free 3 [3] 45 locA,
   .unregister 1, .free 1 [4] 50 locA, .unregister 0, .free 0 [4] 60 locA, .malloc 4 (infoB 70) locA, .register 4]

set_option maxRecDepth 20000 in
theorem story_some : (runAll [] init storyEvs).isSome = true := by decide +kernel

def story : Trace × St := (runAll [] init storyEvs).get story_some

theorem story_run : Run story.1 story.2 ∧ story.1 = storyEvs := by
  have h : runAll [] init storyEvs = some (story.1, story.2) := (Option.some_get story_some).symm
  exact runAll_ok h Run.init

set_option maxRecDepth 20000 in
theorem story_stop : preB story.1 (.stop 0 100) = true ∧ (step story.2 (.stop 0 100)).isSome = true ∧ (step story.2 (.stop 1 100)).isSome = true := by
  decide +kernel

/-- Non-vacuity of `stop_ok`. -/
example : Pre story.1 (.stop 0 100) := preB_ok story_stop.1

/-- What the two profiles are then. -/
def outOf (p : Nat) : Option Table := match step story.2 (.stop p 100) with
  | some (_, .profile _ t) => some t
  | _ => none

/-- Non-vacuity of `profile_exact` and `trace_exact`: two lifetimes of 10 and 30 ns in one cell; one event trace cut at six events. -/
def twoTen : Key × Key := ((infoB 0 |> fun i => (i.stack, i.attrs, i.size)), ([3], 2, 128))

set_option maxRecDepth 20000 in
theorem story_profiles :
    (outOf 0).map (fun t => (t.cell twoTen 95).count) = some 2 ∧ (outOf 0).map (fun t => (t.cell twoTen 95).mean) = some 20 ∧
      (outOf 0).map (fun t => t.cells.length) = some 3 ∧ (outOf 1).map (fun t => (t.events.map fun r => (r.handle, r.info.size))) =
        some [(2, 128), (2, 0), (3, 128), (3, 0), (1, 64), (1, 0)] := by
  decide +kernel

/-- C59 is false: lifetimes of 10 and 30 ns, standard deviation 10 ns; the square reported is 50, not 100. -/
theorem deviation_wrong : ∃ t, outOf 0 = some t ∧ (t.cell twoTen 95).dev2 = 50 ∧ variance 20 [10, 30] = 100 := by
  have h : (outOf 0).isSome = true := by decide +kernel
  have h2 : (outOf 0).map (fun t => (t.cell twoTen 95).dev2) = some 50 := by decide +kernel
  obtain ⟨t, ht⟩ := Option.isSome_iff_exists.1 h
  rw [ht] at h2
  exact ⟨t, ht, by simpa using h2, by decide +kernel⟩

/-- C58, a limit: an allocation made before the profile was started, live throughout the start and deallocated while the profile ran, may be missed: its report to the profiles came before the
start, its registration after. -/
theorem in_flight_missed : ∃ tr0 m k tr1 l w tr2, story.1 = tr0 ++ .add 0 m k :: (tr1 ++ .seed 0 l w :: tr2) ∧ .malloc 1 infoA locA ∈ tr0 ∧
    .unregister 1 ∉ tr0 ++ .add 0 m k :: tr1 ∧ freed tr2 1 = true ∧ ∀ r ∈ known l w tr2, r.handle ≠ 1 := by
  refine ⟨[.malloc 0 infoA locA, .register 0, .malloc 1 infoA locA], .lifetimes, 0, [.register 1], [(0, infoA)], locB,
    storyEvs.drop 6, story_run.2, ?_, ?_, ?_, ?_⟩ <;> decide +kernel

/-- C58, a limit: an allocation made before the profile was started is put down to the thread that started the profile, so an object allocated and freed by one
thread on one CPU is reported as freed on another CPU by another thread. -/
theorem seeded_match_wrong : .malloc 0 infoA locA ∈ story.1 ∧ .free 0 [4] 60 locA ∈ story.1 ∧
    ∃ t, outOf 0 = some t ∧ (t.cell ((infoA.stack, 1, 64), ([4], 1, 64)) (computeIndex (statusOf false false false false false) 2)).count = 1 := by
  have h : (outOf 0).isSome = true := by decide +kernel
  have h2 : (outOf 0).map (fun t => (t.cell ((infoA.stack, 1, 64), ([4], 1, 64)) (computeIndex (statusOf false false false false false) 2)).count) = some 1 := by
    decide +kernel
  obtain ⟨t, ht⟩ := Option.isSome_iff_exists.1 h
  rw [ht] at h2
  refine ⟨by rw [story_run.2]; decide, by rw [story_run.2]; decide, t, ht, by simpa using h2⟩

end Verif.Lifetime
