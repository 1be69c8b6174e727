import Verif.PageMap.Lemmas2
/-!
C11: address-to-metadata lookup.  C44: enumerating the allocated spans.
-/
namespace Verif.PageMap

/-- **C11.** After any successful history of page-map operations, every lookup of every page answers exactly
what the intended contents (`View.run`, plain functions updated page by page) say: the descriptor, the class
beside it, the class in the separate array; pages that were never set, and page numbers beyond the address
space, answer 0. -/
theorem lookup_exact (c : Cfg) (hc : c.OK) (al : Nat → Bool) (os : List Op) (ho : ∀ o ∈ os, o.OK) (m : Map)
    (h : run c al Map.init os = some m) (k : Nat) :
    let v := View.init.run c os
    get c m k = v.span k ∧ getWithClass c m k = (v.span k, v.cls k) ∧ sizeclass c m k = v.fast k ∧
    (2 ^ c.bits ≤ k → get c m k = 0 ∧ sizeclass c m k = 0) := by
  intro v
  have r := R.run hc al os _ m _ (R.init c) ho h
  obtain ⟨e1, e2, e3, _⟩ := lookups_eq hc m k
  have hbig : 2 ^ c.bits ≤ k → get c m k = 0 ∧ sizeclass c m k = 0 := by
    intro hk
    rw [e1, e3, leafOf_out hc (by omega)]; exact ⟨rfl, rfl⟩
  cases hl : leafOf c m k with
  | none =>
    obtain ⟨a, b, d, _⟩ := r.none k hl
    rw [hl] at e1 e2 e3
    exact ⟨by rw [e1]; exact a.symm, by rw [e2]; exact (Prod.ext a b).symm, by rw [e3]; exact d.symm, hbig⟩
  | some leaf =>
    obtain ⟨a, b, d, _⟩ := r.some k leaf hl
    rw [hl] at e1 e2 e3
    exact ⟨by rw [e1]; exact a, by rw [e2]; exact Prod.ext a b, by rw [e3]; exact d, hbig⟩

/-- **C11, unchecked lookups.** On a page whose leaf exists the unchecked lookups used on the free path are
defined and agree with the checked ones; the hugepage slot is the one last stored for that hugepage. -/
theorem unchecked_lookup_exact (c : Cfg) (hc : c.OK) (al : Nat → Bool) (os : List Op)
    (ho : ∀ o ∈ os, o.OK) (m : Map) (h : run c al Map.init os = some m) (k : Nat)
    (hk : hasLeaf c m k = true) :
    let v := View.init.run c os
    getExisting c m k = some (v.span k) ∧ getExistingWithClass c m k = some (v.span k, v.cls k) ∧
    getHuge c m k = some (v.huge (k / 2 ^ (21 - c.pageShift))) := by
  intro v
  have r := R.run hc al os _ m _ (R.init c) ho h
  rw [(lookups_eq hc m k).2.2.2] at hk
  cases hl : leafOf c m k with
  | none => rw [hl] at hk; simp at hk
  | some leaf =>
    obtain ⟨a, b, _, d⟩ := r.some k leaf hl
    unfold getExisting getExistingWithClass getHuge
    rw [hl]
    simp only []
    rw [a, b, d]
    exact ⟨rfl, rfl, rfl⟩

/-- **C11, growth.** `Ensure` changes no lookup; when it reports success every page of the range is usable
(every store succeeds) then and after any further history; it never reports success for a range beyond the
address space; and with memory available it succeeds for every range inside it. -/
theorem ensure_exact (c : Cfg) (hc : c.OK) (al : Nat → Bool) (m : Map) (start n : Nat) (hn : 0 < n)
    (h64 : start + n ≤ 2 ^ 64) :
    (∀ k, get c (ensure c al m start n).1 k = get c m k ∧
      sizeclass c (ensure c al m start n).1 k = sizeclass c m k ∧
      getWithClass c (ensure c al m start n).1 k = getWithClass c m k) ∧
    ((ensure c al m start n).2 = true →
      start + n ≤ 2 ^ c.bits ∧
      ∀ os m', run c al (ensure c al m start n).1 os = some m' → ∀ k, start ≤ k → k < start + n →
        hasLeaf c m' k = true ∧ ∀ s sc, (set c m' k s).isSome ∧ (setWithClass c m' k s sc).isSome ∧
          (clearClass c m' k).isSome ∧ (setHuge c m' k s).isSome) ∧
    ((∀ i, al i = true) → start + n ≤ 2 ^ c.bits → (ensure c al m start n).2 = true) := by
  have hlast : (start + n + 2 ^ 64 - 1) % 2 ^ 64 = start + n - 1 := by
    rw [show start + n + 2 ^ 64 - 1 = (start + n - 1) + 2 ^ 64 by omega, Nat.add_mod_right,
      Nat.mod_eq_of_lt (by omega)]
  obtain ⟨g1, g2⟩ := ensureLoop_spec (c := c) al (start + n - 1) _ start m (Nat.le_refl _)
  unfold ensure
  rw [hlast]
  refine ⟨fun k => ?_, fun ht => ?_, fun hal hr =>
    ensureLoop_total hc al hal _ (by omega) _ start m (Nat.le_refl _)⟩
  · obtain ⟨a1, a2, a3, _⟩ := lookups_eq hc (ensureLoop c al m start (start + n - 1)).1 k
    obtain ⟨b1, b2, b3, _⟩ := lookups_eq hc m k
    rcases g1 k with e | ⟨e1, e2⟩
    · rw [a1, a2, a3, b1, b2, b3, e]; exact ⟨rfl, rfl, rfl⟩
    · rw [a1, a2, a3, b1, b2, b3, e1, e2]
      simp [unpackSpan, unpackClass, Leaf.zero]
  · constructor
    · have hne := g2 ht (start + n - 1) (by omega) (by omega)
      apply Classical.byContradiction
      intro hcon
      exact hne (leafOf_out hc (by omega))
    · intro os m' hr k h1 h2
      have hl := run_keeps al os _ m' hr (g2 ht k h1 (by omega))
      have hmod : ∀ f, (modLeaf c m' k f).isSome := by
        intro f
        rcases modLeaf_spec (c := c) (m := m') (k := k) (f := f) with ⟨e, _⟩ | ⟨_, m'', _, e, _⟩
        · exact absurd e hl
        · rw [e]; rfl
      refine ⟨?_, fun s sc => ⟨hmod _, hmod _, hmod _, hmod _⟩⟩
      rw [(lookups_eq hc m' k).2.2.2]
      cases hx : leafOf c m' k with
      | none => exact absurd hx hl
      | some _ => rfl

/-- **C11, scanning.** The next-page scan returns the first later page that has a descriptor, and reports
"none" only when there is none. -/
theorem next_page_exact (c : Cfg) (hc : c.OK) (m : Map) (k : Nat) :
    (∀ x, nextSet c m k = some x → k < x ∧ get c m x ≠ 0 ∧ ∀ y, k < y → y < x → get c m y = 0) ∧
    (nextSet c m k = none → ∀ y, k < y → get c m y = 0) := by
  have h := nextSet_spec hc m k
  constructor
  · intro x hx; rw [hx] at h; exact ⟨h.1, h.2.2.1, h.2.2.2⟩
  · intro hx; rw [hx] at h; exact h

/-- **C44 (partial).** If no page outside the live spans still points to a descriptor whose range contains
that page, the enumeration reports every live span exactly once, in address order, and nothing else.
Missing: that hypothesis is not an invariant of the code, see `freed_span_still_listed`. -/
theorem allocated_spans_exact_partial (c : Cfg) (hc : c.OK) (m : Map) (first last : Nat → Nat) (inv : Nat)
    (live : Nat → Prop) (h : LiveOK c m first last inv live) :
    let out := allocatedSpans c m first last inv
    (∀ s p, (s, p) ∈ out ↔ live s ∧ p = first s) ∧
    out.Pairwise (fun a b => a.1 ≠ b.1 ∧ last a.1 < first b.1) := by
  intro out
  obtain ⟨a, b, d⟩ := allocatedLoop_spec hc h (2 ^ c.bits + 1) 0 (by omega) (Nat.pow_pos (by omega))
    (fun s _ => Or.inl (Nat.zero_le _))
  constructor
  · intro s p
    constructor
    · intro hm
      obtain ⟨q1, q2, _⟩ := a (s, p) hm
      exact ⟨q1, q2⟩
    · rintro ⟨q1, rfl⟩
      exact b s q1 (Nat.zero_le _)
  · refine List.Pairwise.imp_of_mem ?_ d
    intro x y hx hy hxy
    obtain ⟨x1, x2, _⟩ := a x hx
    obtain ⟨y1, y2, _⟩ := a y hy
    rw [y2] at hxy
    refine ⟨fun e => ?_, hxy⟩
    have := (h.real x.1 x1).2.2.1
    rw [← e] at hxy
    omega

/-! ### The configuration of a default build, and a stale entry -/

/-- 48-bit addresses, 8 KiB pages. -/
def dflt : Cfg := ⟨35, 13⟩

theorem dflt_ok : dflt.OK := by
  constructor <;> simp [dflt, Cfg.rootBits, Cfg.leafBits, Cfg.midBits]

/-- The build constants of every supported page size satisfy `Cfg.OK`. -/
theorem shipped_ok : ∀ ps ∈ [12, 13, 15, 18], Cfg.OK ⟨48 - ps, ps⟩ := by
  intro ps h
  simp only [List.mem_cons, List.not_mem_nil, or_false] at h
  rcases h with rfl | rfl | rfl | rfl <;>
    (constructor <;> simp [Cfg.rootBits, Cfg.leafBits, Cfg.midBits])

/-- A three-page small-object span at pages 10..12 is registered with class 5, then freed the way
the central free list (central_freelist.cc:168) and `HugePageAwareAllocator::Delete`
(huge_page_aware_allocator.h:897, huge_page_aware_allocator.cc:121-123) do: the class array is cleared and the *first* page is set to the
invalid descriptor. -/
def staleOps : List Op :=
  [.ensure 10 3, .register 4096 5 10 3, .unregister 10 3, .set 10 64]

theorem staleOps_run : ∃ m, run dflt (fun _ => true) Map.init staleOps = some m := by
  have := dflt_ok
  obtain ⟨_, h2, h3⟩ := ensure_exact dflt dflt_ok (fun _ => true) Map.init 10 3 (by omega) (by omega)
  have hu := (h2 (h3 (fun _ => rfl) (by simp [dflt]))).2
  have hstep : ∀ (o : Op) os m, run dflt (fun _ => true) (ensure dflt (fun _ => true) Map.init 10 3).1 os = some m →
      ∀ k, 10 ≤ k → k < 13 → ∀ f, (modLeaf dflt m k f).isSome := by
    intro o os m hr k k1 k2 f
    have := (hu os m hr k k1 (by omega)).1
    rw [(lookups_eq dflt_ok m k).2.2.2] at this
    rcases modLeaf_spec (c := dflt) (m := m) (k := k) (f := f) with ⟨e, _⟩ | ⟨_, m'', _, e, _⟩
    · rw [e] at this; simp at this
    · rw [e]; rfl
  have one : ∀ m, (∀ k, 10 ≤ k → k < 13 → leafOf dflt m k ≠ none) →
      ∀ o ∈ staleOps, ∃ m', step dflt (fun _ => true) m o = some m' ∧
        ∀ k, 10 ≤ k → k < 13 → leafOf dflt m' k ≠ none := by
    intro m hm o ho
    have hmod : ∀ (m : Map) f k, leafOf dflt m k ≠ none → ∃ m', modLeaf dflt m k f = some m' := by
      intro m f k hk
      rcases modLeaf_spec (c := dflt) (m := m) (k := k) (f := f) with ⟨e, _⟩ | ⟨_, m'', _, e, _⟩
      · exact absurd e hk
      · exact ⟨m'', e⟩
    have fin : ∀ o m', step dflt (fun _ => true) m o = some m' →
        ∃ m', step dflt (fun _ => true) m o = some m' ∧
          ∀ k, 10 ≤ k → k < 13 → leafOf dflt m' k ≠ none :=
      fun o m' e => ⟨m', e, fun k a b => step_keeps _ e (hm k a b)⟩
    simp only [staleOps, List.mem_cons, List.not_mem_nil, or_false] at ho
    rcases ho with rfl | rfl | rfl | rfl
    · exact fin _ _ rfl
    · obtain ⟨m1, e1⟩ := hmod m (fun l => { l with
          sizeclass := upd l.sizeclass (i3 dflt 10) 5, packed := upd l.packed (i3 dflt 10) (pack 4096 5) })
          10 (hm 10 (by omega) (by omega))
      obtain ⟨m2, e2⟩ := hmod m1 (fun l => { l with
          sizeclass := upd l.sizeclass (i3 dflt 11) 5, packed := upd l.packed (i3 dflt 11) (pack 4096 5) })
          11 (modLeaf_keeps e1 (hm 11 (by omega) (by omega)))
      obtain ⟨m3, e3⟩ := hmod m2 (fun l => { l with
          sizeclass := upd l.sizeclass (i3 dflt 12) 5, packed := upd l.packed (i3 dflt 12) (pack 4096 5) })
          12 (modLeaf_keeps e2 (modLeaf_keeps e1 (hm 12 (by omega) (by omega))))
      refine fin _ m3 ?_
      simp only [step, registerLoop, setWithClass]
      rw [e1]; simp only []; rw [e2]; simp only []; rw [e3]
    · obtain ⟨m1, e1⟩ := hmod m (fun l => { l with sizeclass := upd l.sizeclass (i3 dflt 10) 0 })
          10 (hm 10 (by omega) (by omega))
      obtain ⟨m2, e2⟩ := hmod m1 (fun l => { l with sizeclass := upd l.sizeclass (i3 dflt 11) 0 })
          11 (modLeaf_keeps e1 (hm 11 (by omega) (by omega)))
      obtain ⟨m3, e3⟩ := hmod m2 (fun l => { l with sizeclass := upd l.sizeclass (i3 dflt 12) 0 })
          12 (modLeaf_keeps e2 (modLeaf_keeps e1 (hm 12 (by omega) (by omega))))
      refine fin _ m3 ?_
      simp only [step, unregisterLoop, clearClass]
      rw [e1]; simp only []; rw [e2]; simp only []; rw [e3]
    · obtain ⟨m1, e1⟩ := hmod m (fun l => { l with packed := upd l.packed (i3 dflt 10) (pack 64 0) })
          10 (hm 10 (by omega) (by omega))
      exact fin _ m1 e1
  have h0 : ∀ k, 10 ≤ k → k < 13 → leafOf dflt (ensure dflt (fun _ => true) Map.init 10 3).1 k ≠ none := by
    intro k a b
    have := (hu [] _ rfl k a (by omega)).1
    rw [(lookups_eq dflt_ok _ k).2.2.2] at this
    intro e; rw [e] at this; simp at this
  obtain ⟨m1, e1, k1⟩ := one _ h0 (.register 4096 5 10 3) (by simp [staleOps])
  obtain ⟨m2, e2, k2⟩ := one _ k1 (.unregister 10 3) (by simp [staleOps])
  obtain ⟨m3, e3, k3⟩ := one _ k2 (.set 10 64) (by simp [staleOps])
  refine ⟨m3, ?_⟩
  unfold staleOps
  rw [run]
  simp only [step] at e1 e2 e3 ⊢
  rw [run]; simp only [step]; rw [e1]; simp only []
  rw [run]; simp only [step]; rw [e2]; simp only []
  rw [run]; simp only [step]; rw [e3]; simp only []
  rw [run]

/-- Witness that the full C44 is false of the code: after a three-page span has been freed (and nothing is
allocated) the enumeration still reports it, at its second page, and the class stored beside the descriptor
still answers 5 for that page. -/
theorem freed_span_still_listed : ∃ m, run dflt (fun _ => true) Map.init staleOps = some m ∧
    (4096, 11) ∈ allocatedSpans dflt m (fun s => if s = 4096 then 10 else 0)
      (fun s => if s = 4096 then 12 else 0) 64 ∧
    getWithClass dflt m 11 = (4096, 5) ∧ sizeclass dflt m 11 = 0 := by
  obtain ⟨m, hm⟩ := staleOps_run
  refine ⟨m, hm, ?_⟩
  have ho : ∀ o ∈ staleOps, o.OK := by
    intro o ho
    simp only [staleOps, List.mem_cons, List.not_mem_nil, or_false] at ho
    rcases ho with rfl | rfl | rfl | rfl <;> simp [Op.OK]
  have hv := lookup_exact dflt dflt_ok _ staleOps ho m hm
  have hspan : ∀ k, get dflt m k = if k = 10 then 64 else if 10 ≤ k ∧ k < 13 then 4096 else 0 := by
    intro k
    rw [(hv k).1]; rfl
  have hnext : ∀ a b, a < b → get dflt m b ≠ 0 → (∀ y, a < y → y < b → get dflt m y = 0) →
      nextSet dflt m a = some b := by
    intro a b hab hb hz
    have := next_page_exact dflt dflt_ok m a
    cases hx : nextSet dflt m a with
    | none => exact absurd (this.2 hx b hab) hb
    | some x =>
      obtain ⟨q1, q2, q3⟩ := this.1 x hx
      by_cases h1 : x < b
      · exact absurd (hz x q1 h1) q2
      · by_cases h2 : b < x
        · exact absurd (q3 b hab h2) hb
        · congr 1; omega
  refine ⟨?_, ?_, ?_⟩
  · have n0 : nextSet dflt m 0 = some 10 := by
      apply hnext
      · omega
      · rw [hspan]; simp
      · intro y h1 h2; rw [hspan, if_neg (by omega), if_neg (by omega)]
    have n1 : nextSet dflt m 10 = some 11 := by
      apply hnext
      · omega
      · rw [hspan]; simp
      · intro y h1 h2; omega
    unfold allocatedSpans
    have g0 : get dflt m 0 = 0 := by rw [hspan]; simp
    have g10 : get dflt m 10 = 64 := by rw [hspan]; simp
    have g11 : get dflt m 11 = 4096 := by rw [hspan]; simp
    obtain ⟨N, hN⟩ : ∃ N, 2 ^ dflt.bits + 1 = N + 3 := ⟨2 ^ dflt.bits - 2, by simp [dflt]⟩
    rw [hN, allocatedLoop, g0, n0]
    simp only [true_or, if_true]
    rw [allocatedLoop, g10, n1]
    simp only [true_or, or_true, if_true]
    rw [allocatedLoop, g11]
    simp
  · rw [(hv 11).2.1]; rfl
  · rw [(hv 11).2.2.1]; rfl

/-- Non-vacuity of `lookup_exact` with a successful history: the same one. -/
example : ∃ m, run dflt (fun _ => true) Map.init staleOps = some m ∧ get dflt m 12 = 4096 := by
  obtain ⟨m, hm, _⟩ := freed_span_still_listed
  refine ⟨m, hm, ?_⟩
  have ho : ∀ o ∈ staleOps, o.OK := by
    intro o ho
    simp only [staleOps, List.mem_cons, List.not_mem_nil, or_false] at ho
    rcases ho with rfl | rfl | rfl | rfl <;> simp [Op.OK]
  rw [(lookup_exact dflt dflt_ok _ staleOps ho m hm 12).1]; rfl

/-- Non-vacuity of `allocated_spans_exact_partial`: the map of that history with the span of pages 11..12
counted as live (as if page 10 alone had been returned). -/
example : ∃ m, run dflt (fun _ => true) Map.init staleOps = some m ∧
    LiveOK dflt m (fun s => if s = 4096 then 11 else 0) (fun s => if s = 4096 then 12 else 0) 64
      (fun s => s = 4096) := by
  obtain ⟨m, hm, _⟩ := freed_span_still_listed
  have ho : ∀ o ∈ staleOps, o.OK := by
    intro o ho
    simp only [staleOps, List.mem_cons, List.not_mem_nil, or_false] at ho
    rcases ho with rfl | rfl | rfl | rfl <;> simp [Op.OK]
  have hspan : ∀ k, get dflt m k = if k = 10 then 64 else if 10 ≤ k ∧ k < 13 then 4096 else 0 := by
    intro k
    rw [(lookup_exact dflt dflt_ok _ staleOps ho m hm k).1]; rfl
  refine ⟨m, hm, ?_⟩
  constructor
  · rintro s rfl; simp [dflt]
  · rintro s rfl; rw [hspan]; simp
  · rintro s t rfl rfl h; exact absurd rfl h
  · intro p hp
    have := hp 4096 rfl
    simp only [if_pos] at this
    rw [hspan]
    by_cases h1 : p = 10
    · right; left; rw [if_pos h1]
    · left; rw [if_neg h1, if_neg (by omega)]

end Verif.PageMap
