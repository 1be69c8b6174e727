import Verif.Heap.Props
/-! The memory the composed heap touches: every step that changes a word changes one inside memory the system has handed out. -/
namespace Verif.Heap
open Verif.Span (Geo Mem IsObj InObj)
open Verif.PageHeap (HP Run Call)
open Verif.HugeAddressMap (Rng Cov)
open Verif.TransferCache (Outside)

variable {cfg : Cfg} {limit : Nat} {h h' : Heap}

theorem onTier_ob {k : Nat} {e : TransferCache.Ev} {o : TransferCache.Out} (hs : h.onTier cfg k e = some (h', o)) :
    h'.ob = h.ob ∧ ∃ y, TransferCache.step (cfg.geo k) (cfg.cpu.batch k) (h.tier k) e = some (y, o) ∧ h'.mem = y.x.c.w := by
  unfold Heap.onTier at hs
  obtain ⟨⟨y, o'⟩, h1, h2⟩ := Option.map_eq_some_iff.1 hs
  cases h2
  exact ⟨rfl, y, h1, rfl⟩

theorem deliver_ob {th : Nat} {l : List Nat} {o : Out} (hs : h.deliver cfg th l = some (h', o)) : h'.ob = h.ob ∧ h'.mem = h.mem := by
  unfold Heap.deliver at hs
  obtain ⟨⟨c, o'⟩, h1, h2⟩ := Option.map_eq_some_iff.1 hs
  cases h2
  exact ⟨rfl, rfl⟩

/-- A word changed inside spans of class `k` is in memory obtained. -/
theorem Inv.inside (I : Inv cfg limit z h) (hc : cfg.OK limit) {k : Nat} (hk : cfg.cpu.Used k) {S : List Nat} {w : Mem}
    (hS : ∀ p ∈ S, ∃ r, ((Owner.lent k, r) ∈ h.led ∨ (Owner.fresh k, r) ∈ h.led) ∧ r.p = p)
    (hw : ∀ a, Outside (cfg.geo k) S a → w a = h.mem a) {a : Nat} (ha : w a ≠ h.mem a) :
    ∃ t, Cov (h.ob t) (pg cfg a / cfg.N) := by
  apply Classical.byContradiction
  intro hn
  refine ha (hw a fun p hp o ho hin => ?_)
  obtain ⟨r, hr, rfl⟩ := hS p hp
  have hn' := (I.size k r (Or.comm.1 hr)).2
  have h3 := obj_pg hc hk hn' ho hin
  rcases hr with hr | hr
  · exact hn ⟨_, I.cov hc hr h3⟩
  · exact hn ⟨_, I.cov hc hr h3⟩

/-- The precondition of `Populate` in the middle tier. -/
theorem Inv.populatePre (I : Inv cfg limit [] h) (hc : cfg.OK limit) {k : Nat} (hk : cfg.cpu.Used k) {j : Nat} {run : Option Run}
    (hj : j < (h.wait k).length) (hrun : ∀ r, run = some r → (Owner.fresh k, r) ∈ h.led) :
    TransferCache.Pre (cfg.geo k) (h.tier k) (.populate j (run.map Run.p)) := by
  obtain ⟨g, -⟩ := hc.geo k hk
  obtain ⟨w1, w2⟩ := I.wait k
  have hfr : ∀ r, run = some r → ∀ q ∈ (h.tier k).x.sp, CentralFreeList.Apart (cfg.geo k) r.p q := by
    intro r hr q hq
    have h1 := hrun r hr
    have hn := (I.size k r (Or.inl h1)).2
    obtain ⟨r', h2, rfl, -, hn'⟩ := I.span hq
    have hg : 0 < (cfg.geo k).numPages := by
      have := g.fits
      rcases Nat.eq_zero_or_pos (cfg.geo k).numPages with h0 | h0
      · rw [h0, Nat.zero_mul] at this
        have := Nat.mul_pos g.countPos g.sizePos
        omega
      · exact h0
    unfold CentralFreeList.Apart
    have hd : ∀ p, r.Has p → ¬ r'.Has p := fun p hp => I.apart hc h1 h2 (by simp) (p := p) hp
    rcases Nat.lt_or_ge (r.p + (cfg.geo k).numPages) (r'.p + 1) with h3 | h3
    · left; omega
    · rcases Nat.lt_or_ge (r'.p + (cfg.geo k).numPages) (r.p + 1) with h4 | h4
      · right; omega
      · exfalso
        by_cases h5 : r.p ≤ r'.p
        · exact hd r'.p ⟨h5, by omega⟩ ⟨Nat.le_refl _, by omega⟩
        · exact hd r.p ⟨Nat.le_refl _, by omega⟩ ⟨by omega, by omega⟩
  refine ⟨by omega, fun p hp => ?_⟩
  cases run with
  | none => cases hp
  | some r => cases hp; exact hfr r rfl

/-- A step changes memory only where the system has handed out memory, now or before; and records as obtained only what
the system has handed out in this step. -/
theorem Inv.footprint (I : Inv cfg limit [] h) (hc : cfg.OK limit) {e : Ev} (hp : Pre cfg h e) {o : Out}
    (hs : step cfg h e = some (h', o)) {a : Nat} (ha : h'.mem a ≠ h.mem a) : ∃ t, Cov (h'.ob t) (pg cfg a / cfg.N) := by
  cases e with
  | cpu e i hint =>
    exfalso
    obtain ⟨hp1, hp2, hp3⟩ := hp
    simp only [step] at hs
    obtain ⟨⟨c, o'⟩, h1, h2⟩ := Option.bind_eq_some_iff.1 hs
    dsimp only at h2
    split at h2
    · next k l =>
      obtain ⟨⟨h3, o3⟩, h4, h5⟩ := Option.map_eq_some_iff.1 h2
      cases h5
      have I1 := I.cpuStep hc hp1 hp2 h1
      obtain ⟨h0, hl⟩ := CpuCache.toBacking_len h1
      have hk : cfg.cpu.Used k := by
        obtain ⟨x, hx⟩ := List.exists_mem_of_ne_nil l h0
        have g2 := I1.objs k x
        have g4 : 0 < (CpuCache.Out.leaves (.toBacking k l)).count (k, x) := by
          show 0 < (CpuCache.pairs k l).count (k, x)
          rw [pairs_count, if_pos rfl]; exact List.count_pos_iff.2 hx
        have g3 := I.objs k x
        simp only [List.count_nil, Nat.add_zero] at g3
        change _ = (h.tier k).held.count x at g2
        exact (I.cpu.K hc.cpu).used (k, x) (List.count_pos_iff.1 (by omega))
      obtain ⟨h6, o6, g1, -, g3, -⟩ := Inv.insert (k := k) (l := l) I1 hc hk (i := i) (hint := hint) (hp3 c k l h1) h0 hl
      rw [g1] at h4; cases h4
      exact ha (by rw [g3])
    · cases h2; exact ha rfl
  | ask th i hint hint0 =>
    exfalso
    obtain ⟨st, k, n, hth, hask, hw, hi⟩ := hp
    obtain ⟨hu, -, -⟩ := CpuCache.asks_ok hc.cpu I.cpu hth hask
    obtain ⟨h1, o1, g1, hm, -⟩ := I.remove hc hu (hint := hint) (hint0 := hint0) hth hask hw hi
    simp only [step, hth, hask, Option.bind_some, g1] at hs
    split at hs
    · exact ha (by rw [(deliver_ob hs).2, hm])
    · cases hs; exact ha (by show h1.mem a = _; rw [hm])
  | answer k j run =>
    obtain ⟨hu, hj, hrun⟩ := hp
    obtain ⟨h1, o1, th, l, st, n, k1, k2, k3, -⟩ := I.populate hc hu hj hrun
    simp only [step, k1, k2, k3, Option.bind_some, Option.getD_some] at hs
    obtain ⟨d1, d2⟩ := deliver_ob hs
    obtain ⟨b1, y, b2, b3⟩ := onTier_ob k2
    rw [d1]; rw [d2] at ha
    show ∃ t, Cov (h1.ob t) _
    rw [b1]
    change h1.mem a ≠ _ at ha
    rw [b3] at ha
    obtain ⟨g, -⟩ := hc.geo k hu
    have hp' : TransferCache.Pre (cfg.geo k) (h.tier k) (.populate j (run.map Run.p)) := I.populatePre hc hu hj hrun
    obtain ⟨_, _, _, _, _, _, _, _, hfrm⟩ := TransferCache.tier_populate g hu.2.2.2 (I.tier k) hp' b2
    refine I.inside hc hu (S := (run.map Run.p).toList) ?_ (w := y.x.c.w) (fun a ha => by rw [hfrm a ha, I.mem k]) ha
    intro p hp
    cases run with
    | none => cases hp
    | some r => simp at hp; exact ⟨r, Or.inr (hrun r rfl), hp.symm⟩
  | tier k e =>
    obtain ⟨hu, hi, hp⟩ := hp
    simp only [step] at hs
    obtain ⟨⟨h1, o1⟩, h2, h3⟩ := Option.map_eq_some_iff.1 hs
    cases h3
    obtain ⟨b1, y, b2, b3⟩ := onTier_ob h2
    rw [b1]; rw [b3] at ha
    obtain ⟨g, -⟩ := hc.geo k hu
    obtain ⟨_, _, _, _, _, _, hfrm⟩ := TransferCache.tier_inner g hu.2.2.2 (I.tier k) hi hp b2
    refine I.inside hc hu (S := (h.tier k).x.sp) ?_ (w := y.x.c.w) (fun a ha => by rw [hfrm a ha, I.mem k]) ha
    intro p hp
    obtain ⟨r, h1, h2, -⟩ := I.span hp
    exact ⟨r, Or.inl h1, h2⟩
  | page t e who w =>
    obtain ⟨hpe, hfresh, -, hmem⟩ := hp
    simp only [step] at hs
    obtain ⟨⟨s, r⟩, h1, h2⟩ := Option.map_eq_some_iff.1 hs
    cases h2
    change w a ≠ h.mem a at ha
    refine ⟨t, ?_⟩
    show Cov (upd h.ob t (r.got ++ h.ob t) t) _
    rw [upd_same]
    rcases hmem s r h1 a ha with ⟨c, hc1, hc2⟩ | hg
    · exact PageHeap.calls_cov hc.N2 hc.H0 (I.page t) hpe h1 hc1 hc2
    · obtain ⟨g, g1, g2⟩ := hg
      exact ⟨g, List.mem_append_left _ g1, g2⟩
  | write w =>
    cases hs
    obtain ⟨b, hb, h1, h2⟩ := hp a ha
    obtain ⟨-, x, hx, hy⟩ := I.inRun hc hb
    exact ⟨_, I.cov hc (o := x.1) (r := x.2) hx (hy (2 * a) h1 h2)⟩
  | kernel w =>
    cases hs
    obtain ⟨t, ht⟩ := hp a ha
    exact ⟨t, PageHeap.leaving_cov hc.N2 hc.H0 (I.page t) ht⟩

/-- What the system handed out in a step. -/
def Ev.handed : Ev → List Rng
  | .page _ e _ _ => e.sys
  | _ => []

theorem step_memory {e : Ev} {o : Out} (hs : step cfg h e = some (h', o)) (t q : Nat) :
    (Cov (h'.ob t) q → Cov (h.ob t) q ∨ Cov e.handed q) ∧ (Cov (h.ob t) q → Cov (h'.ob t) q) := by
  have same : h'.ob = h.ob → (Cov (h'.ob t) q → Cov (h.ob t) q ∨ Cov e.handed q) ∧ (Cov (h.ob t) q → Cov (h'.ob t) q) := by
    intro he; rw [he]; exact ⟨Or.inl, id⟩
  cases e with
  | cpu e i hint =>
    refine same ?_
    simp only [step] at hs
    obtain ⟨⟨c, o'⟩, h1, h2⟩ := Option.bind_eq_some_iff.1 hs
    dsimp only at h2
    split at h2
    · obtain ⟨⟨h3, o3⟩, h4, h5⟩ := Option.map_eq_some_iff.1 h2
      cases h5
      exact (onTier_ob h4).1
    · cases h2; rfl
  | ask th i hint hint0 =>
    refine same ?_
    simp only [step] at hs
    obtain ⟨⟨k, n⟩, h1, h2⟩ := Option.bind_eq_some_iff.1 hs
    obtain ⟨⟨h3, o3⟩, h4, h5⟩ := Option.bind_eq_some_iff.1 h2
    dsimp only at h5
    split at h5
    · rw [(deliver_ob h5).1]; exact (onTier_ob h4).1
    · cases h5; exact (onTier_ob h4).1
  | answer k j run =>
    refine same ?_
    simp only [step] at hs
    obtain ⟨th, h1, h2⟩ := Option.bind_eq_some_iff.1 hs
    obtain ⟨⟨h3, o3⟩, h4, h5⟩ := Option.bind_eq_some_iff.1 h2
    rw [(deliver_ob h5).1]; exact (onTier_ob h4).1
  | tier k e =>
    refine same ?_
    simp only [step] at hs
    obtain ⟨⟨h1, o1⟩, h2, h3⟩ := Option.map_eq_some_iff.1 hs
    cases h3
    exact (onTier_ob h2).1
  | page t' e who w =>
    simp only [step] at hs
    obtain ⟨⟨s, r⟩, h1, h2⟩ := Option.map_eq_some_iff.1 hs
    cases h2
    show (Cov (upd h.ob t' (r.got ++ h.ob t') t) q → Cov (h.ob t) q ∨ Cov e.sys q) ∧
      (Cov (h.ob t) q → Cov (upd h.ob t' (r.got ++ h.ob t') t) q)
    unfold upd
    split
    · next ht =>
      subst ht
      constructor
      · rintro ⟨g, g1, g2⟩
        rcases List.mem_append.1 g1 with g1 | g1
        · exact Or.inr ⟨g, PageHeap.step_got h1 g g1, g2⟩
        · exact Or.inl ⟨g, g1, g2⟩
      · rintro ⟨g, g1, g2⟩; exact ⟨g, List.mem_append_right _ g1, g2⟩
    · exact ⟨Or.inl, id⟩
  | write w => cases hs; exact same rfl
  | kernel w => cases hs; exact same rfl

end Verif.Heap
