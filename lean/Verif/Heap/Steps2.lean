import Verif.Heap.Steps
/-! Steps of the page heaps, of the kernel and of users keep the invariant. -/
namespace Verif.Heap
open Verif.Span (Geo Mem IsObj InObj)
open Verif.PageHeap (HP Run)
open Verif.HugeAddressMap (Rng Cov)
open Verif.TransferCache (Outside)

variable {cfg : Cfg} {limit : Nat} {z : List (Nat × Nat)} {h : Heap}

theorem Inv.setMem (I : Inv cfg limit z h) {w : Mem}
    (hw : ∀ k r, (Owner.lent k, r) ∈ h.led → cfg.cpu.Used k → r.n = (cfg.geo k).numPages →
      ∀ o, IsObj (CentralFreeList.spanAt (cfg.geo k) r.p) o → o ∉ (h.tier k).held →
      ∀ a, InObj (CentralFreeList.spanAt (cfg.geo k) r.p) o a → w a = h.mem a) : Inv cfg limit z (h.setMem w) :=
  { cpu := I.cpu
    tier := fun k => reach_setW (I.tier k) fun p hp o ho hh a ha => by
      obtain ⟨r, hr, rfl, hu, hn⟩ := I.span hp
      rw [I.mem k]
      exact hw k r hr hu hn o ho hh a ha
    page := I.page
    mem := fun _ => rfl
    objs := I.objs
    led := I.led
    lent := I.lent
    size := I.size
    obs := I.obs
    low := I.low
    wait := I.wait
    asks := I.asks }

theorem live'_cases (L : List Run) (led : List (Owner × Run)) (who : Owner) (e : PageHeap.Ev) (out : PageHeap.Out) :
    (∃ r a b c, e = .delete r a b c ∧ PageHeap.live' L e out = L.erase r ∧ ledger led who e out = led.erase (who, r)) ∨
    ((∀ r a b c, e ≠ .delete r a b c) ∧
      ((∃ r b, out = .run r b ∧ PageHeap.live' L e out = r :: L ∧ ledger led who e out = (who, r) :: led) ∨
       ((∀ r b, out ≠ .run r b) ∧ PageHeap.live' L e out = L ∧ ledger led who e out = led))) := by
  cases e with
  | delete r a b c => exact Or.inl ⟨r, a, b, c, rfl, rfl, rfl⟩
  | _ =>
    right
    refine ⟨fun _ _ _ _ h => (by cases h), ?_⟩
    cases out with
    | run r b => exact Or.inl ⟨r, b, rfl, rfl, rfl⟩
    | _ => exact Or.inr ⟨fun _ _ h => (by cases h), rfl, rfl⟩

/-- The page heap of a tag. -/
theorem Inv.pageStep (I : Inv cfg limit z h) (hc : cfg.OK limit) {t : Nat} {e : PageHeap.Ev} {who : Owner} {w : Mem}
    (hp : Pre cfg h (.page t e who w)) :
    ∃ h' s r, Verif.Heap.step cfg h (.page t e who w) = some (h', .page t r) ∧
      (h.page t).step cfg.H cfg.N cfg.mode e = some (s, r) ∧ Inv cfg limit z h' ∧ Kept cfg h h' ∧
      h'.cpu = h.cpu ∧ h'.led = ledger h.led who e r.out ∧
      ∀ c ∈ r.calls, ∀ x ∈ h'.led, ∀ p, c.Has p → ¬ x.2.Has p := by
  obtain ⟨he, hfresh, ⟨hcall1, hcall2⟩, hmem⟩ := hp
  obtain ⟨s, r, hs, hr⟩ := PageHeap.step_defined hc.N2 hc.H0 (I.page t) e he
  have hgot : ∀ q ∈ r.got, q ∈ e.sys := PageHeap.step_got hs
  have hcov : ∀ {q : Nat}, Cov (r.got ++ h.ob t) q ↔ Cov r.got q ∨ Cov (h.ob t) q := by
    intro q; simp [Cov, or_and_right, exists_or]
  have hgf : ∀ {q : Nat}, Cov r.got q → ∀ t', ¬ Cov (h.ob t') q := by
    rintro q ⟨g, hg, hgq⟩ t'
    exact hfresh g (hgot g hg) t' q hgq
  -- who the run is from
  have hrun : ∀ x b, r.out = .run x b → (∀ r a b c, e ≠ .delete r a b c) →
      (∃ k, who = .fresh k ∧ cfg.cpu.Used k ∧ cfg.tag k = t ∧ x.n = (cfg.geo k).numPages) ∨ who = .big t := by
    intro x b hx hne
    obtain ⟨n, hn⟩ := PageHeap.step_run_pages hc.N2 hc.H0 (I.page t) he hs hx hne
    have := PageHeap.step_run hc.N2 hc.H0 (I.page t) he hs hn hx
    rcases hcall1 n hn with ⟨k, h1, h2, h3, h4⟩ | h1
    · exact Or.inl ⟨k, h1, h2, h3, by omega⟩
    · exact Or.inr h1
  have hled : ∀ t', (ofTag cfg t' (ledger h.led who e r.out)).Perm (upd h.runs t (PageHeap.live' (h.runs t) e r.out) t') := by
    intro t'
    have hL := I.led t'
    rcases live'_cases (h.runs t) h.led who e r.out with ⟨x, a, b, c, h1, h2, h3⟩ | ⟨hne, ⟨x, b, h1, h2, h3⟩ | ⟨-, h2, h3⟩⟩
    · obtain ⟨h4, h5⟩ := hcall2 x a b c h1
      have htag : who.tag cfg = t := by
        rcases h5 with ⟨k, rfl, h5⟩ | rfl
        · exact h5
        · rfl
      rw [h2, h3]
      have h6 := ofTag_perm (cfg := cfg) (t := t') (List.perm_cons_erase h4)
      rw [ofTag_cons, htag] at h6
      unfold upd
      split
      · next ht =>
        subst ht
        rw [if_pos rfl] at h6
        have h7 : x ∈ h.runs t' := hL.mem_iff.1 (h6.mem_iff.2 (by simp))
        exact ((h6.symm.trans hL).trans (List.perm_cons_erase h7)).cons_inv
      · next ht =>
        rw [if_neg (fun h => ht h.symm), List.nil_append] at h6
        exact h6.symm.trans hL
    · have htag : who.tag cfg = t := by
        rcases hrun x b h1 hne with ⟨k, rfl, -, h5, -⟩ | rfl
        · exact h5
        · rfl
      rw [h2, h3, ofTag_cons, htag]
      unfold upd
      split
      · next ht => subst ht; rw [if_pos rfl]; exact hL.cons x
      · next ht => rw [if_neg (fun h => ht h.symm)]; exact hL
    · rw [h2, h3]
      unfold upd
      split
      · next ht => subst ht; exact hL
      · exact hL
  have hlent : ∀ k, (ofClass k (ledger h.led who e r.out)).Perm (ofClass k h.led) := by
    intro k
    rcases live'_cases (h.runs t) h.led who e r.out with ⟨x, a, b, c, h1, h2, h3⟩ | ⟨hne, ⟨x, b, h1, h2, h3⟩ | ⟨-, h2, h3⟩⟩
    · obtain ⟨h4, h5⟩ := hcall2 x a b c h1
      have h6 := ofClass_perm (k := k) (List.perm_cons_erase h4)
      rw [ofClass_cons, if_neg (by rcases h5 with ⟨_, rfl, -⟩ | rfl <;> simp), List.nil_append] at h6
      rw [h3]; exact h6.symm
    · rw [h3, ofClass_cons, if_neg (by rcases hrun x b h1 hne with ⟨_, rfl, -⟩ | rfl <;> simp), List.nil_append]
    · rw [h3]
  have hsize : ∀ k x, (Owner.fresh k, x) ∈ ledger h.led who e r.out ∨ (Owner.lent k, x) ∈ ledger h.led who e r.out →
      cfg.cpu.Used k ∧ x.n = (cfg.geo k).numPages := by
    intro k x hm
    rcases live'_cases (h.runs t) h.led who e r.out with ⟨x', a, b, c, h1, h2, h3⟩ | ⟨hne, ⟨x', b, h1, h2, h3⟩ | ⟨-, h2, h3⟩⟩
    · rw [h3] at hm
      exact I.size k x (hm.imp List.mem_of_mem_erase List.mem_of_mem_erase)
    · rw [h3] at hm
      rcases hm with hm | hm
      · rcases List.mem_cons.1 hm with hm | hm
        · cases hm
          rcases hrun _ b h1 hne with ⟨k', h4, h5, -, h6⟩ | h4
          · cases h4; exact ⟨h5, h6⟩
          · cases h4
        · exact I.size k x (Or.inl hm)
      · rcases List.mem_cons.1 hm with hm | hm
        · cases hm
          rcases hrun _ b h1 hne with ⟨k', h4, -⟩ | h4 <;> cases h4
        · exact I.size k x (Or.inr hm)
    · rw [h3] at hm; exact I.size k x hm
  have hobs : ∀ t1 t2, t1 ≠ t2 → ∀ q, Cov (upd h.ob t (r.got ++ h.ob t) t1) q → ¬ Cov (upd h.ob t (r.got ++ h.ob t) t2) q := by
    intro t1 t2 hne q h1 h2
    by_cases ht1 : t1 = t
    · have ht2 : t2 ≠ t := fun h => hne (ht1.trans h.symm)
      subst ht1
      rw [upd_same, hcov] at h1
      rw [upd_ne _ _ ht2] at h2
      rcases h1 with h1 | h1
      · exact hgf h1 _ h2
      · exact I.obs _ _ hne q h1 h2
    · rw [upd_ne _ _ ht1] at h1
      by_cases ht2 : t2 = t
      · subst ht2
        rw [upd_same, hcov] at h2
        rcases h2 with h2 | h2
        · exact hgf h2 _ h1
        · exact I.obs _ _ hne q h1 h2
      · rw [upd_ne _ _ ht2] at h2
        exact I.obs _ _ hne q h1 h2
  let h1 : Heap := { h with
          page := upd h.page t s
          ob := upd h.ob t (r.got ++ h.ob t)
          runs := upd h.runs t (PageHeap.live' (h.runs t) e r.out)
          led := ledger h.led who e r.out }
  have I1 : Inv cfg limit z h1 :=
    { cpu := I.cpu
      tier := I.tier
      page := fun t' => by
        show PageHeap.Reach _ _ _ (upd h.page t s t') (upd h.ob t (r.got ++ h.ob t) t')
          (upd h.runs t (PageHeap.live' (h.runs t) e r.out) t')
        by_cases ht : t' = t
        · subst ht; rw [upd_same, upd_same, upd_same]; exact hr
        · rw [upd_ne _ _ ht, upd_ne _ _ ht, upd_ne _ _ ht]; exact I.page t'
      mem := I.mem
      objs := I.objs
      led := hled
      lent := fun k => (hlent k).trans (I.lent k)
      size := hsize
      obs := hobs
      low := fun t' q hq => by
        change q ∈ upd h.ob t (r.got ++ h.ob t) t' at hq
        by_cases ht : t' = t
        · subst ht
          rw [upd_same] at hq
          rcases List.mem_append.1 hq with hq | hq
          · exact PageHeap.sys_ok he (hgot q hq)
          · exact I.low _ q hq
        · rw [upd_ne _ _ ht] at hq; exact I.low _ q hq
      wait := I.wait
      asks := I.asks }
  have hcalls : ∀ c ∈ r.calls, ∀ x ∈ ledger h.led who e r.out, ∀ p, c.Has p → ¬ x.2.Has p := by
    intro c hcm x hx p hcp hxp
    by_cases ht : x.1.tag cfg = t
    · have : x.2 ∈ PageHeap.live' (h.runs t) e r.out := by
        have h2 := (hled t).mem_iff.1 (mem_ofTag.2 ⟨x.1, hx, ht⟩)
        rwa [upd_same] at h2
      exact PageHeap.live_never_released hc.N2 hc.H0 (I.page t) e he hs c hcm x.2 this p hcp hxp
    · have h2 := PageHeap.calls_cov hc.N2 hc.H0 (I.page t) he hs hcm hcp
      have h3 := I1.cov hc (o := x.1) (r := x.2) hx hxp
      refine hobs t (x.1.tag cfg) (fun h => ht h.symm) (p / cfg.N) ?_ h3
      rw [upd_same]; exact h2
  have hkeep : ∀ x ∈ h.led, x ∈ ledger h.led who e r.out → ∀ a, x.2.Has (pg cfg a) → w a = h.mem a := by
    intro x hx hx' a ha
    apply Classical.byContradiction
    intro hne
    rcases hmem s r hs a hne with ⟨c, hcm, hca⟩ | hg
    · exact hcalls c hcm x hx' _ hca ha
    · exact hgf hg _ (I.cov hc (o := x.1) (r := x.2) hx ha)
  have hsub : ∀ {k x}, (Owner.lent k, x) ∈ h.led → (Owner.lent k, x) ∈ ledger h.led who e r.out := by
    intro k x hx
    obtain ⟨y, hy⟩ := mem_ofClass.1 ((hlent k).mem_iff.2 (mem_ofClass.2 ⟨x, hx, rfl⟩))
    rcases live'_cases (h.runs t) h.led who e r.out with ⟨x', a, b, c, h1, h2, h3⟩ | ⟨hne, ⟨x', b, h1, h2, h3⟩ | ⟨-, h2, h3⟩⟩
    · rw [h3]
      refine (List.mem_erase_of_ne ?_).2 hx
      intro he'
      rcases (hcall2 x' a b c h1).2 with ⟨k', h4, -⟩ | h4
      · rw [h4] at he'; cases he'
      · rw [h4] at he'; cases he'
    · rw [h3]; exact .tail _ hx
    · rw [h3]; exact hx
  refine ⟨h1.setMem w, s, r, ?_, hs, ?_, ⟨?_, ?_⟩, rfl, rfl, hcalls⟩
  · simp only [Verif.Heap.step, hs]; rfl
  · refine I1.setMem fun k x hx hu hn o ho _ a ha => ?_
    have hx0 : (Owner.lent k, x) ∈ h.led := by
      have h2 : (Owner.lent k, x) ∈ ledger h.led who e r.out := hx
      rcases live'_cases (h.runs t) h.led who e r.out with ⟨x', a, b, c, h1, _, h3⟩ | ⟨hne, ⟨x', b, h1, _, h3⟩ | ⟨-, _, h3⟩⟩
      · rw [h3] at h2; exact List.mem_of_mem_erase h2
      · rw [h3] at h2
        rcases List.mem_cons.1 h2 with h2 | h2
        · cases h2
          rcases hrun _ b h1 hne with ⟨k', h4, -⟩ | h4 <;> cases h4
        · exact h2
      · rw [h3] at h2; exact h2
    exact hkeep _ hx0 hx a (obj_pg hc hu hn ho ha)
  · intro k o hu ho _ a ha
    obtain ⟨x, h2, h3, h4⟩ := I.held hc hu ho
    exact hkeep _ h2 (hsub h2) a (obj_pg hc hu h3 h4 ha)
  · intro t' x hx hx' a ha
    exact hkeep _ hx hx' a ha

/-- The kernel takes away what is leaving. -/
theorem Inv.kernel (I : Inv cfg limit z h) (hc : cfg.OK limit) {w : Mem} (hp : Pre cfg h (.kernel w)) :
    Inv cfg limit z (h.setMem w) ∧ Kept cfg h (h.setMem w) ∧
      ∀ x ∈ h.led, ∀ a, x.2.Has (pg cfg a) → w a = h.mem a := by
  have hkeep : ∀ x ∈ h.led, ∀ a, x.2.Has (pg cfg a) → w a = h.mem a := by
    intro x hx a ha
    apply Classical.byContradiction
    intro hne
    obtain ⟨t, ht⟩ := hp a hne
    by_cases hxt : x.1.tag cfg = t
    · exact PageHeap.live_never_leaving hc.N2 hc.H0 (I.page t) x.2 ((I.led t).mem_iff.1 (mem_ofTag.2 ⟨x.1, hx, hxt⟩)) _ ha ht
    · exact I.obs _ _ hxt _ (I.cov hc (o := x.1) (r := x.2) hx ha) (PageHeap.leaving_cov hc.N2 hc.H0 (I.page t) ht)
  refine ⟨I.setMem fun k x hx hu hn o ho _ a ha => hkeep _ hx a (obj_pg hc hu hn ho ha), ⟨?_, ?_⟩, hkeep⟩
  · intro k o hu ho _ a ha
    obtain ⟨x, h2, h3, h4⟩ := I.held hc hu ho
    exact hkeep _ h2 a (obj_pg hc hu h3 h4 ha)
  · intro t' x hx _ a ha
    exact hkeep _ hx a ha

theorem mem_bigs {h : Heap} {r : Run} : r ∈ h.bigs ↔ ∃ t, (Owner.big t, r) ∈ h.led := by
  unfold Heap.bigs
  rw [List.mem_filterMap]
  constructor
  · rintro ⟨⟨o, x⟩, hx, he⟩
    cases o <;> simp at he
    subst he; exact ⟨_, hx⟩
  · rintro ⟨t, ht⟩; exact ⟨_, ht, rfl⟩

theorem Inv.user (I : Inv cfg limit z h) (hc : cfg.OK limit) {k o : Nat} (ho : (k, o) ∈ h.cpu.user) :
    cfg.cpu.Used k ∧ o ∈ (h.tier k).held := by
  have h1 := CpuCache.user_within hc.cpu h.cpu I.cpu (k, o)
  have h2 : 0 < h.cpu.user.count (k, o) := List.count_pos_iff.2 ho
  have h3 := I.objs k o
  exact ⟨(I.cpu.K hc.cpu).used (k, o) (List.count_pos_iff.1 (by omega)), List.count_pos_iff.1 (by omega)⟩

theorem Inv.userNodup (I : Inv cfg limit z h) (hc : cfg.OK limit) : h.cpu.user.Nodup := by
  rw [List.nodup_iff_count]
  rintro ⟨k, o⟩
  by_cases ho : (k, o) ∈ h.cpu.user
  · obtain ⟨hu, -⟩ := I.user hc ho
    have h1 := CpuCache.user_within hc.cpu h.cpu I.cpu (k, o)
    have h2 := I.objs k o
    have h3 := List.nodup_iff_count.1 (TransferCache.held_nodup (hc.geo k hu).1 hu.2.2.2 (I.tier k)) o
    omega
  · rw [List.count_eq_zero.2 ho]; omega

/-- Two objects of a span are the same or have no byte in common. -/
theorem obj_apart {g : Geo} {o o' : Nat} (h1 : IsObj g o) (h2 : IsObj g o') (hne : o ≠ o') :
    o + g.size ≤ o' ∨ o' + g.size ≤ o := by
  obtain ⟨i, -, rfl⟩ := h1
  obtain ⟨j, -, rfl⟩ := h2
  rcases Nat.lt_trichotomy i j with hlt | rfl | hlt
  · left
    have := Nat.mul_le_mul_right g.size (Nat.succ_le_of_lt hlt)
    rw [Nat.succ_mul] at this
    omega
  · exact absurd rfl hne
  · right
    have := Nat.mul_le_mul_right g.size (Nat.succ_le_of_lt hlt)
    rw [Nat.succ_mul] at this
    omega

/-- Where a live block is. -/
theorem Inv.block (I : Inv cfg limit z h) (hc : cfg.OK limit) {b : Block} (hb : b ∈ h.live cfg) :
    (∃ k o r, b = ⟨o, (cfg.geo k).size⟩ ∧ (k, o) ∈ h.cpu.user ∧ cfg.cpu.Used k ∧ o ∈ (h.tier k).held ∧ (Owner.lent k, r) ∈ h.led ∧
      r.n = (cfg.geo k).numPages ∧ IsObj (CentralFreeList.spanAt (cfg.geo k) r.p) o) ∨
    ∃ t r, b = ⟨r.p * 2 ^ cfg.ps, r.n * 2 ^ cfg.ps⟩ ∧ (Owner.big t, r) ∈ h.led := by
  unfold Heap.live at hb
  rcases List.mem_append.1 hb with hb | hb
  · left
    obtain ⟨⟨k, o⟩, hx, rfl⟩ := List.mem_map.1 hb
    obtain ⟨hu, hh⟩ := I.user hc hx
    obtain ⟨r, h1, h2, h3⟩ := I.held hc hu hh
    exact ⟨k, o, r, rfl, hx, hu, hh, h1, h2, h3⟩
  · right
    obtain ⟨r, hx, rfl⟩ := List.mem_map.1 hb
    obtain ⟨t, ht⟩ := mem_bigs.1 hx
    exact ⟨t, r, rfl, ht⟩

/-- Users write. -/
theorem Inv.write (I : Inv cfg limit z h) (hc : cfg.OK limit) {w : Mem} (hp : Pre cfg h (.write w)) :
    Inv cfg limit z (h.setMem w) := by
  refine I.setMem fun k r hr hu hn o ho hh a ha => ?_
  apply Classical.byContradiction
  intro hne
  obtain ⟨b, hb, hba⟩ := hp a hne
  have hpa := obj_pg hc hu hn ho ha
  rcases I.block hc hb with ⟨k', o', r', rfl, -, hu', hh', hr', hn', ho'⟩ | ⟨t, r', rfl, hr'⟩
  · have hpa' : r'.Has (pg cfg a) := obj_pg hc hu' hn' ho' hba
    by_cases he : (Owner.lent k, r) = (Owner.lent k', r')
    · cases he
      have hoo : o ≠ o' := by rintro rfl; exact hh hh'
      have h1 := obj_apart ho ho' hoo
      have h2 : o ≤ 2 * a ∧ 2 * a < o + (cfg.geo k).size := ha
      have h3 : o' ≤ 2 * a ∧ 2 * a < o' + (cfg.geo k).size := hba
      have h4 : o + (cfg.geo k).size ≤ o' ∨ o' + (cfg.geo k).size ≤ o := h1
      omega
    · exact I.apart hc hr hr' he hpa hpa'
  · refine I.apart hc hr hr' (by simp) hpa ?_
    rw [pg_has]
    have h3 : r'.p * 2 ^ cfg.ps ≤ 2 * a ∧ 2 * a < r'.p * 2 ^ cfg.ps + r'.n * 2 ^ cfg.ps := hba
    rw [Nat.add_mul]; exact h3

end Verif.Heap
