import Verif.SystemAlloc.Inv
import Verif.Arena.Spec
import Verif.HugeAllocator.Spec
/-! C37: the system allocator; C53: `Release`. -/
namespace Verif.SystemAlloc
open Verif.MemoryTag

theorem EnvOK.congr {c : Cfg} {w w' : W} {size al : Nat} {t : Tag} {o : Oracle} (h : EnvOK c w size al t o)
    (h1 : w'.next = w.next) (h2 : w'.mapped = w.mapped) : EnvOK c w' size al t o := by
  have : ∀ i, attempt w' size al t o i = attempt w size al t o i := by
    intro i
    cases i with
    | zero => unfold attempt; rw [h1]
    | succ i => rfl
  exact ⟨by rw [h2]; exact h.free, fun hn i r hk => by rw [this]; exact h.fixed hn i r hk, h.hint⟩

theorem mmapLocked_congr {c : Cfg} {w : W} {size al : Nat} {t : Tag} {o : Oracle} {r : Option Region} :
    mmapLocked c (w.setRegion t r) size al t o = (mmapLocked c w size al t o).map fun x => (x.1.setRegion t r, x.2) := by
  unfold mmapLocked
  split
  · rfl
  · show (match (if usable (w.next t) size al t then some (w.next t) else _) with | none => none | some addr => _) = _
    cases (if usable (w.next t) size al t then some (w.next t) else randomHint size al t (o.rnd 0)) with
    | none => rfl
    | some addr =>
      dsimp only
      cases mmapLoop c size al t o 1000 0 addr with
      | none => rfl
      | some v =>
        obtain ⟨n, res⟩ := v
        cases res <;> rfl

theorem region_outcome {c : Cfg} {w : W} {t : Tag} {bytes al i : Nat} {o : Oracle} (hc : c.OK) (hI : Inv c w)
    (hb : 0 < bytes) (hsup : c.supports t = true) (hal : max al c.page = 2 ^ i)
    (hE : EnvOK c w (c.askSize bytes al) (c.askAlign bytes al) t o)
    (hc1 : ¬ c.large bytes al → ∀ r, w.region t = some r → r.custom = true → CustOK w.given r.start r.size bytes (max al c.page) o.cust1)
    (hc2 : w.custom = true → ∀ w1 ptr, mmapLocked c w (c.askSize bytes al) (c.askAlign bytes al) t o = some (w1, some ptr) →
      if c.large bytes al then CustOK w.given ptr (c.askSize bytes al) (roundUp bytes c.huge) (c.askAlign bytes al) o.cust1
      else CustOK w.given ptr c.minMmap bytes (max al c.page) o.cust2) :
    ∃ w' res, allocFromRegion c w bytes (max al c.page) t o = some (w', res) ∧ Outcome c w w' t bytes (max al c.page) res := by
  unfold allocFromRegion
  split
  · exact ⟨w, none, rfl, hI, rfl, fun p h => by cases h⟩
  · rename_i hsmall
    have hq : bytes ≤ 2 ^ 42 := by
      have : ¬ kTagFree < bytes := fun h => hsmall (.inl h)
      have e : kTagFree = 2 ^ 42 := by decide
      omega
    have hi42 : i ≤ 42 := by
      have h : ¬ kTagFree < max al c.page := fun h => hsmall (.inr h)
      have e : kTagFree = 2 ^ 42 := by decide
      rw [hal, e] at h
      exact (Nat.pow_le_pow_iff_right (a := 2) (by omega)).1 (by omega)
    split
    · rename_i hl
      have hl' : c.large bytes al := hl
      have e1 : c.askSize bytes al = roundUp bytes c.huge := by unfold Cfg.askSize; rw [if_pos hl']
      have e2 : c.askAlign bytes al = max (max al c.page) c.huge := by unfold Cfg.askAlign; rw [if_pos hl']
      rw [e1, e2, hal] at hE
      rw [hal]
      refine large_outcome hc hI hb hq hi42 hsup hE ?_
      intro hw w1 ptr hm
      have := hc2 hw w1 ptr (by rw [e1, e2, hal]; exact hm)
      rw [if_pos hl', e1, e2, hal] at this
      exact this
    · rename_i hl
      have hl' : ¬ c.large bytes al := hl
      have e1 : c.askSize bytes al = c.minMmap := by unfold Cfg.askSize; rw [if_neg hl']
      have e2 : c.askAlign bytes al = c.minMmap := by unfold Cfg.askAlign; rw [if_neg hl']
      rw [e1, e2] at hE
      rw [hsup, if_neg (by decide)]
      have hc2' : w.custom = true → ∀ w1 ptr, mmapLocked c w c.minMmap c.minMmap t o = some (w1, some ptr) →
          CustOK w.given ptr c.minMmap bytes (2 ^ i) o.cust2 := by
        intro hw w1 ptr hm
        have := hc2 hw w1 ptr (by rw [e1, e2]; exact hm)
        rw [if_neg hl', hal] at this
        exact this
      replace hc1 := hc1 hl'
      rw [hal] at hc1 ⊢
      cases hreg : w.region t with
      | none => exact fresh_outcome hc hI hq hsup hE hc2'
      | some r =>
        have hro := hI.reg t r hreg
        have hretry : ∀ r', RegOK c w t r' → r'.custom = r.custom →
            ∃ w' res, allocFresh c (w.setRegion t (some r')) bytes (2 ^ i) t o = some (w', res) ∧ Outcome c w w' t bytes (2 ^ i) res := by
          intro r' hr' hcu'
          have hI' := hI.set (t0 := t) (r0 := some r') (fun r h => by cases h; exact hr')
          obtain ⟨w', res, h1, h2⟩ := fresh_outcome (w := w.setRegion t (some r')) hc hI' hq hsup (hE.congr rfl rfl) (by
            intro hw w1 ptr hm
            rw [mmapLocked_congr, Option.map_eq_some_iff] at hm
            obtain ⟨⟨w2, p2⟩, hm1, hm2⟩ := hm
            simp only [Prod.mk.injEq] at hm2
            obtain ⟨-, rfl⟩ := hm2
            exact hc2' hw w2 ptr hm1)
          refine ⟨w', res, h1, h2.inv, h2.given, ?_⟩
          intro p hp
          obtain ⟨a, b⟩ := h2.ans p hp
          refine ⟨⟨a.size, a.aligned, a.pos, a.tagged, a.top, a.fresh, ?_⟩, b⟩
          intro hcw hall
          refine a.huge hcw ?_
          intro r2 hr2
          have : r2 = r' := by
            unfold W.setRegion at hr2
            simp only [if_true, Option.some.injEq] at hr2
            exact hr2.symm
          rw [this, hcu']
          exact hall r hreg
        have hothers : ∀ (r' : Region) (p : Nat × Nat), Within p (r.start, r.size) → ∀ t' r2, t' ≠ t → w.region t' = some r2 →
            r2.custom = false → Disj (r2.start, r2.free) p := by
          intro r' p hp t' r2 hne hr2 hcf
          have h2 := hI.reg t' r2 hr2
          refine Tagged.disj (s := t') (t := t) ?_ (hro.good.tagged.within hp) hne
          exact h2.good.tagged.within ⟨Nat.le_refl _, by have := (h2.free hcf).1; dsimp only; omega⟩
        dsimp only
        unfold Region.allocAny
        by_cases hcu : r.custom = true
        · rw [if_pos hcu]
          cases hx : o.cust1 with
          | none => exact hretry r hro rfl
          | some v =>
            obtain ⟨a1, a2, a3, a4, a5⟩ := hc1 r hreg hcu v.1 v.2 hx
            dsimp only
            refine ⟨_, _, rfl, hI.set (fun r' h => by cases h; exact hro), rfl, ?_⟩
            intro p hp
            cases hp
            have hwi : Within v (r.start, r.size) := ⟨a3, a4⟩
            refine ⟨⟨a1, a2, by have := hro.good.pos; omega, hro.good.tagged.within hwi, by have := hro.good.top; omega, a5, ?_⟩,
              ⟨_, hro.mem, hwi⟩, ?_⟩
            · intro _ hall
              have := hall r hreg
              rw [hcu] at this
              cases this
            · intro t' r2 hr2 hcf
              unfold W.setRegion at hr2
              dsimp only at hr2
              split at hr2
              · cases hr2; rw [hcu] at hcf; cases hcf
              · exact hothers r v hwi t' r2 (by assumption) hr2 hcf
        · have hcu' : r.custom = false := by simpa using hcu
          rw [if_neg hcu]
          obtain ⟨r', res, k1, k2, k3, k4, k5, k6, k7⟩ := alloc_spec (i := i) (prot := o.prot1) hc hro hcu' hq
          rw [k1]
          cases res with
          | none => exact hretry r' k5 k4
          | some v =>
            dsimp only
            refine ⟨_, _, rfl, hI.set (fun r2 h => by cases h; exact k5), rfl, ?_⟩
            intro p hp
            cases hp
            obtain ⟨b1, b2, b3, b4, b5, b6, b7⟩ := k7 v rfl
            have hf := hro.free hcu'
            have hwi : Within v (r.start, r.size) := ⟨b5, by dsimp only; omega⟩
            have hwf : Within v (r.start, r.free) := ⟨b5, by dsimp only; omega⟩
            refine ⟨⟨b1, b2, by have := hro.good.pos; omega, hro.good.tagged.within hwi, by have := hro.good.top; omega,
              fun g hg => (hf.2.2 g hg).within hwf, fun _ _ => ⟨b3, b4⟩⟩, ⟨_, hro.mem, hwi⟩, ?_⟩
            intro t' r2 hr2 hcf
            unfold W.setRegion at hr2
            dsimp only at hr2
            split at hr2
            · cases hr2
              intro x hx
              dsimp only at hx
              rw [k2] at hx
              omega
            · exact hothers r v hwi t' r2 (by assumption) hr2 hcf

theorem max_page {c : Cfg} {al : Nat} (h : al = 0 ∨ ∃ i, al = 2 ^ i ∧ i < 64) : ∃ i, max al c.page = 2 ^ i := by
  rcases h with rfl | ⟨i, rfl, -⟩
  · exact ⟨c.pageBits, Nat.zero_max _⟩
  · exact ⟨_, max_pow i c.pageBits⟩

/-- Every call ends without a failed check, and the invariant holds again. -/
theorem step_spec {c : Cfg} {w : W} {e : Ev} (hc : c.OK) (hI : Inv c w) (hp : Pre c w e) :
    ∃ w' res, step c w e = some (w', res) ∧ Inv c w' ∧ w'.given = res.toList ++ w.given ∧
      ∀ p, res = some p → match e with
        | .allocate b a t _ => Ans c w t b (max a c.page) p
        | .mmapAligned s a t _ => Ans { c with hugeBits := 0 } w t s a p ∧ p.2 = s
        | .setFactory _ => False := by
  cases e with
  | setFactory b =>
    refine ⟨_, _, rfl, ?_, rfl, fun p h => by cases h⟩
    exact ⟨hI.next, hI.mdisj, hI.gdisj, hI.gin, fun t r h => by cases h⟩
  | mmapAligned size al t o =>
    obtain ⟨h1, h2, ⟨a, rfl, ha⟩, hsup, hE⟩ := hp
    have h2' : size ≤ 2 ^ 42 := h2
    obtain ⟨n, res, k1, k2, k3⟩ := mmapLocked_spec h1 h2' ha hsup (hI.next t) hE
    have hI1 := hI.map (t0 := t) (size := size) (res := res) k2 (fun p hp => (k3 p hp).2)
    show ∃ w' res, SystemAlloc.mmapAligned c w size (2 ^ a) t o = some (w', res) ∧ _
    unfold SystemAlloc.mmapAligned
    rw [k1]
    cases res with
    | none => exact ⟨_, none, rfl, hI1, rfl, fun p h => by cases h⟩
    | some p =>
      obtain ⟨g, hd⟩ := k3 p rfl
      have hgd : ∀ x ∈ w.given, Disj (p, size) x := by
        intro x hx
        obtain ⟨m, hm, hwm⟩ := hI.gin x hx
        exact ((hd m hm).symm.within hwm).symm
      refine ⟨_, _, rfl, hI1.push hgd ⟨_, List.mem_cons_self .., ⟨Nat.le_refl _, Nat.le_refl _⟩⟩ ?_, rfl, ?_⟩
      · intro t' r hr hcf
        have hro := hI.reg t' r hr
        exact (hd _ hro.mem).symm.within ⟨Nat.le_refl _, by have := (hro.free hcf).1; dsimp only; omega⟩
      · intro q hq
        cases hq
        exact ⟨⟨Nat.le_refl _, g.aligned, g.pos, g.tagged, g.top, hgd, fun _ _ => ⟨Nat.mod_one _, Nat.mod_one _⟩⟩, rfl⟩
  | allocate bytes al t o =>
    obtain ⟨hb, hb2, hal0, hsup, hE, hc1, hc2⟩ := hp
    obtain ⟨i, hal⟩ := max_page (c := c) hal0
    show ∃ w' res, SystemAlloc.allocate c w bytes al t o = some (w', res) ∧ _
    unfold SystemAlloc.allocate
    dsimp only
    split
    · exact ⟨w, none, rfl, hI, rfl, fun p h => by cases h⟩
    · obtain ⟨w', res, k1, k2⟩ := region_outcome hc hI hb hsup hal hE hc1 hc2
      rw [k1]
      cases res with
      | none => exact ⟨_, none, rfl, k2.inv, k2.given, fun p h => by cases h⟩
      | some p =>
        obtain ⟨a, b1, b2⟩ := k2.ans p rfl
        dsimp only
        have hsz := a.size
        rw [if_pos ⟨by show _ < 2 ^ 48; have := a.top; omega, a.tagged _ (Nat.le_refl _) (by omega)⟩]
        refine ⟨_, _, rfl, k2.inv.push (by rw [k2.given]; exact a.fresh) b1 b2, ?_, ?_⟩
        · show p :: w'.given = _; rw [k2.given]; rfl
        · intro q hq; cases hq; exact a

theorem Reach.inv {c : Cfg} {w : W} (hc : c.OK) (h : Reach c w) : Inv c w := by
  induction h with
  | init => exact inv_init c
  | step _ hp hs ih =>
    obtain ⟨w', res, h1, h2, -⟩ := step_spec hc ih hp
    rw [h1] at hs
    cases hs
    exact h2

/-! ### The theorems -/

/-- C37: memory returned by an allocation has at least the size asked for, is aligned as asked, lies completely in the part
of the address space that belongs to the tag, below 2^47, and has no byte in common with anything returned before. -/
theorem allocate_ok {c : Cfg} {w w' : W} {bytes al : Nat} {t : Tag} {o : Oracle} {p n : Nat} (hc : c.OK) (hw : Reach c w)
    (hp : Pre c w (.allocate bytes al t o)) (hs : allocate c w bytes al t o = some (w', some (p, n))) :
    bytes ≤ n ∧ (0 < al → p % al = 0) ∧ p % c.page = 0 ∧ 0 < p ∧ (∀ x, p ≤ x → x < p + n → getMemoryTag x = t.val) ∧
    p + n ≤ 2 ^ 47 ∧ (∀ g ∈ w.given, Disj (p, n) g) := by
  obtain ⟨w1, res, h1, -, -, h4⟩ := step_spec hc (hw.inv hc) hp
  have h1' : allocate c w bytes al t o = some (w1, res) := h1
  rw [h1'] at hs
  cases hs
  have a : Ans c w t bytes (max al c.page) (p, n) := h4 _ rfl
  obtain ⟨-, -, hal0, -⟩ := hp
  obtain ⟨i, hal⟩ := max_page (c := c) hal0
  have ha := a.aligned
  rw [hal] at ha
  refine ⟨a.size, ?_, ?_, a.pos, a.tagged, by have := a.top; exact Nat.le_of_lt this, a.fresh⟩
  · intro hpos
    rcases hal0 with rfl | ⟨j, rfl, -⟩
    · omega
    · have hle : 2 ^ j ≤ 2 ^ i := by rw [← hal]; exact Nat.le_max_left _ _
      exact mod_of_le ((Nat.pow_le_pow_iff_right (a := 2) (by omega)).1 hle) ha
  · have hle : c.page ≤ 2 ^ i := by rw [← hal]; exact Nat.le_max_right _ _
    exact mod_of_le ((Nat.pow_le_pow_iff_right (a := 2) (by omega)).1 hle) ha

/-- C37: with the default region factory, what is returned consists of whole hugepages. -/
theorem whole_hugepages {c : Cfg} {w w' : W} {bytes al : Nat} {t : Tag} {o : Oracle} {p n : Nat} (hc : c.OK) (hw : Reach c w)
    (hp : Pre c w (.allocate bytes al t o)) (hf : w.custom = false) (hr : ∀ r, w.region t = some r → r.custom = false)
    (hs : allocate c w bytes al t o = some (w', some (p, n))) : p % c.huge = 0 ∧ n % c.huge = 0 := by
  obtain ⟨w1, res, h1, -, -, h4⟩ := step_spec hc (hw.inv hc) hp
  have h1' : allocate c w bytes al t o = some (w1, res) := h1
  rw [h1'] at hs
  cases hs
  have a : Ans c w t bytes (max al c.page) (p, n) := h4 _ rfl
  exact a.huge hf hr

/-- C37: the same for address space reserved directly (the pool of guarded pages). -/
theorem mmapAligned_ok {c : Cfg} {w w' : W} {size al : Nat} {t : Tag} {o : Oracle} {p n : Nat} (hc : c.OK) (hw : Reach c w)
    (hp : Pre c w (.mmapAligned size al t o)) (hs : mmapAligned c w size al t o = some (w', some (p, n))) :
    n = size ∧ p % al = 0 ∧ 0 < p ∧ (∀ x, p ≤ x → x < p + n → getMemoryTag x = t.val) ∧ p + n ≤ 2 ^ 47 ∧
    (∀ g ∈ w.given, Disj (p, n) g) := by
  obtain ⟨w1, res, h1, -, -, h4⟩ := step_spec hc (hw.inv hc) hp
  have h1' : mmapAligned c w size al t o = some (w1, res) := h1
  rw [h1'] at hs
  cases hs
  obtain ⟨a, hn⟩ : Ans { c with hugeBits := 0 } w t size al (p, n) ∧ n = size := h4 _ rfl
  exact ⟨hn, a.aligned, a.pos, a.tagged, by have := a.top; exact Nat.le_of_lt this, a.fresh⟩

/-- C37: no two ranges ever returned overlap, and each lies within one mapping that the process still has; the mappings do
not overlap either. -/
theorem returned_disjoint {c : Cfg} {w : W} (hc : c.OK) (hw : Reach c w) :
    w.given.Pairwise Disj ∧ w.mapped.Pairwise Disj ∧
    ∀ g ∈ w.given, ∃ m ∈ w.mapped, m.1 ≤ g.1 ∧ g.1 + g.2 ≤ m.1 + m.2 :=
  ⟨(hw.inv hc).gdisj, (hw.inv hc).mdisj, (hw.inv hc).gin⟩

/-- C37: exactly the ranges returned are added to what callers have. -/
theorem returned_recorded {c : Cfg} {w w' : W} {e : Ev} {res : Option (Nat × Nat)} (hc : c.OK) (hw : Reach c w) (hp : Pre c w e)
    (hs : step c w e = some (w', res)) : w'.given = res.toList ++ w.given := by
  obtain ⟨w1, res1, h1, -, h3, -⟩ := step_spec hc (hw.inv hc) hp
  rw [h1] at hs
  cases hs
  exact h3

/-- C37: no check or assertion fails: every call returns. -/
theorem calls_succeed {c : Cfg} {w : W} {e : Ev} (hc : c.OK) (hw : Reach c w) (hp : Pre c w e) : (step c w e).isSome = true := by
  obtain ⟨w1, res1, h1, -⟩ := step_spec hc (hw.inv hc) hp
  rw [h1]; rfl

/-- C37: requests for more than 4 TiB, or with such an alignment, fail; so do those whose size overflows. -/
theorem too_large {c : Cfg} {w : W} {bytes al : Nat} {t : Tag} {o : Oracle}
    (h : 2 ^ 42 < bytes ∨ 2 ^ 42 < al ∨ 2 ^ 64 ≤ bytes + max al c.page ∧ bytes < 2 ^ 64 ∧ max al c.page < 2 ^ 64) :
    allocate c w bytes al t o = some (w, none) := by
  have e : kTagFree = 2 ^ 42 := by decide
  unfold allocate
  dsimp only
  split
  · rfl
  · rename_i hov
    unfold allocFromRegion
    rw [if_pos]
    rw [e]
    rcases h with h | h | ⟨h1, h2, h3⟩
    · exact .inl h
    · exact .inr (by omega)
    · exfalso; apply hov; omega

/-- C37: a request is only refused if the kernel refuses, or the address space of the tag is exhausted: when the first
address tried is mapped, and the region can be created and unprotected, memory is returned. -/
theorem allocate_succeeds {c : Cfg} {w : W} {bytes al : Nat} {t : Tag} {o : Oracle} (hc : c.OK) (hw : Reach c w)
    (hp : Pre c w (.allocate bytes al t o)) (hf : w.custom = false) (hr : ∀ r, w.region t = some r → r.custom = false)
    (hb : bytes ≤ 2 ^ 42) (ha : al ≤ 2 ^ 42) (hcr : o.create = true) (hp1 : o.prot1 = true) (hp2 : o.prot2 = true)
    (hk : o.kern 0 = some (attempt w (c.askSize bytes al) (c.askAlign bytes al) t o 0)) :
    ∃ w' p n, allocate c w bytes al t o = some (w', some (p, n)) := by
  have hI := hw.inv hc
  have hpage : c.page ≤ 2 ^ 42 := Nat.pow_le_pow_right (by omega) (by have := hc.page; have := hc.huge; have := hc.mmap; omega)
  have hmin : c.minMmap ≤ 2 ^ 42 := Nat.pow_le_pow_right (by omega) hc.mmap
  have hminpos : 0 < c.minMmap := Nat.pow_pos (by omega)
  obtain ⟨hb0, hb2, hal0, hsup, hE, hc1, hc2⟩ := hp
  obtain ⟨i, hal⟩ := max_page (c := c) hal0
  have hi42 : i ≤ 42 := (Nat.pow_le_pow_iff_right (a := 2) (by omega)).1 (by rw [← hal]; omega)
  -- the mapping succeeds
  have hmap : ∀ {w : W} {size a : Nat}, 0 < size → size ≤ 2 ^ 42 → a ≤ 42 → w.next t < 2 ^ 47 → EnvOK c w size (2 ^ a) t o →
      o.kern 0 = some (attempt w size (2 ^ a) t o 0) → ∃ n p, mmapLocked c w size (2 ^ a) t o = some (w.mapTo t n size (some p), some p) ∧
        Good t (2 ^ a) p size := by
    intro w size a h1 h2 h3 h4 h5 h6
    obtain ⟨n, res, k1, k2, k3⟩ := mmapLocked_spec h1 h2 h3 hsup h4 h5
    cases res with
    | some p => exact ⟨n, p, k1, (k3 p rfl).1⟩
    | none =>
      exfalso
      -- the first attempt succeeds
      unfold mmapLocked at k1
      have hmask : kTagMask = 7 * 2 ^ 42 := by decide
      have hpa : 2 ^ a ≤ 2 ^ 42 := Nat.pow_le_pow_right (by omega) h3
      have hd1 : decide (kTagMask < size) = false := by rw [decide_eq_false_iff_not, hmask]; omega
      have hd2 : decide (kTagMask < 2 ^ a) = false := by rw [decide_eq_false_iff_not, hmask]; omega
      rw [hsup, hd1, hd2, if_neg (by decide)] at k1
      have key : ∃ addr, (if usable (w.next t) size (2 ^ a) t then some (w.next t) else randomHint size (2 ^ a) t (o.rnd 0))
          = some addr ∧ Good t (2 ^ a) addr size ∧ addr = attempt w size (2 ^ a) t o 0 := by
        by_cases hu : usable (w.next t) size (2 ^ a) t = true
        · exact ⟨w.next t, by rw [if_pos hu], usable_good h1 h2 h4 hu, by unfold attempt; rw [if_pos hu]⟩
        · exact ⟨_, by rw [if_neg hu]; exact randomHint_eq h1 h2 h3 (h5.hint 0), hint_good h1 h2 h3 (h5.hint 0), by unfold attempt; rw [if_neg hu]⟩
      obtain ⟨addr, g1, g2, g3⟩ := key
      rw [g1] at k1
      dsimp only at k1
      have hl : mmapLoop c size (2 ^ a) t o 1000 0 addr = some (addr + size, some addr) := by
        unfold mmapLoop
        rw [if_neg (by rw [Decidable.not_not]; exact g2.tagged _ (Nat.le_refl _) (by dsimp only; omega)), if_pos (by rw [h6, g3]),
          if_pos ⟨by show _ ≤ 2 ^ 48; have := g2.top; omega, g2.aligned⟩]
      rw [hl] at k1
      simp at k1
  have hround := roundUp_spec (n := bytes) (b := c.hugeBits) (by have := hc.huge; have := hc.mmap; omega) hb
  -- a fresh region is large enough
  have hfresh : ∀ {w : W}, w.custom = false → w.next t < 2 ^ 47 → ¬ c.large bytes al → EnvOK c w c.minMmap c.minMmap t o →
      o.kern 0 = some (attempt w c.minMmap c.minMmap t o 0) → ∃ w' p, allocFresh c w bytes (2 ^ i) t o = some (w', some p) := by
    intro w hwc hwn hl hE' hk'
    obtain ⟨n, p, k1, g⟩ := hmap (a := c.mmapBits) hminpos hmin hc.mmap hwn hE' hk'
    have k1' : mmapLocked c w c.minMmap c.minMmap t o = _ := k1
    unfold allocFresh
    rw [k1']
    dsimp only
    rw [hcr, if_neg (by decide)]
    unfold Region.allocAny
    rw [hwc, if_neg Bool.false_ne_true]
    unfold Region.alloc
    dsimp only
    have hbm : bytes ≤ c.minMmap := by
      have : ¬ c.minMmap < bytes := fun h => hl (.inl h)
      omega
    have him : 2 ^ i ≤ c.minMmap := by
      have : ¬ c.minMmap < max al c.page := fun h => hl (.inr h)
      rw [hal] at this
      omega
    have hru : roundUp bytes c.huge ≤ c.minMmap := by
      -- the region's size is a multiple of the hugepage size
      have hdv : c.huge ∣ c.minMmap := Nat.pow_dvd_pow 2 hc.huge
      have hle : c.huge ≤ 2 ^ 42 := Nat.pow_le_pow_right (by omega) (by have := hc.huge; have := hc.mmap; omega)
      have hpos : 0 < c.huge := Nat.pow_pos (by omega)
      unfold roundUp
      rw [Nat.mod_eq_of_lt (show bytes + c.huge - 1 < 2 ^ 64 by omega)]
      have hd := Nat.div_add_mod (bytes + c.huge - 1) c.huge
      have e : bytes + c.huge - 1 - (bytes + c.huge - 1) % c.huge = c.huge * ((bytes + c.huge - 1) / c.huge) := by omega
      rw [e]
      obtain ⟨m, hm⟩ := hdv
      rw [hm]
      apply Nat.mul_le_mul_left
      rw [Nat.div_le_iff_le_mul hpos, Nat.mul_comm, ← hm]
      omega
    change bytes ≤ roundUp bytes c.huge ∧ _ at hround
    rw [if_neg (by omega), if_neg (by omega)]
    have hmx : max (2 ^ i) c.huge = 2 ^ max i c.hugeBits := max_pow _ _
    have hmxle : max i c.hugeBits ≤ c.mmapBits := by
      have : i ≤ c.mmapBits := (Nat.pow_le_pow_iff_right (a := 2) (by omega)).1 him
      have := hc.huge
      omega
    rw [hmx]
    have hpa : p % 2 ^ max i c.hugeBits = 0 := mod_of_le hmxle g.aligned
    obtain ⟨d1, d2⟩ := down_spec (n := p + c.minMmap - roundUp bytes c.huge) (j := max i c.hugeBits)
    have hge : p ≤ p + c.minMmap - roundUp bytes c.huge - (p + c.minMmap - roundUp bytes c.huge) % 2 ^ max i c.hugeBits := by
      have hd := Nat.div_add_mod (p + c.minMmap - roundUp bytes c.huge) (2 ^ max i c.hugeBits)
      have hdp := Nat.div_add_mod p (2 ^ max i c.hugeBits)
      have hle : p / 2 ^ max i c.hugeBits ≤ (p + c.minMmap - roundUp bytes c.huge) / 2 ^ max i c.hugeBits :=
        Nat.div_le_div_right (by omega)
      have := Nat.mul_le_mul_left (2 ^ max i c.hugeBits) hle
      omega
    rw [if_neg (by omega)]
    rw [if_neg (by rw [Decidable.not_not]; exact mod_of_le (Nat.le_trans hc.page (Nat.le_max_right _ _)) d1)]
    rw [hp2, if_neg (by decide), if_neg (by omega)]
    exact ⟨_, _, rfl⟩
  have hmain : ∃ w' p, allocFromRegion c w bytes (max al c.page) t o = some (w', some p) := by
    unfold allocFromRegion
    have e : kTagFree = 2 ^ 42 := by decide
    rw [if_neg (by rw [e]; omega)]
    split
    · rename_i hl
      have hl' : c.large bytes al := hl
      have e1 : c.askSize bytes al = roundUp bytes c.huge := by unfold Cfg.askSize; rw [if_pos hl']
      have e2 : c.askAlign bytes al = max (max al c.page) c.huge := by unfold Cfg.askAlign; rw [if_pos hl']
      have hmx : max (2 ^ i) c.huge = 2 ^ max i c.hugeBits := max_pow _ _
      rw [e1, e2, hal, hmx] at hE hk
      change bytes ≤ roundUp bytes c.huge ∧ roundUp bytes c.huge % c.huge = 0 ∧ roundUp bytes c.huge ≤ 2 ^ 42 at hround
      obtain ⟨n, p, k1, g⟩ := hmap (by omega) hround.2.2 (by have := hc.huge; have := hc.mmap; omega) (hI.next t) hE hk
      unfold allocLarge
      dsimp only
      rw [hal, hmx, if_neg (by omega), k1]
      dsimp only
      rw [hcr, if_neg (by decide), hf]
      unfold Region.allocAny
      rw [if_neg Bool.false_ne_true]
      unfold Region.alloc
      dsimp only
      have hrr : roundUp (roundUp bytes c.huge) c.huge = roundUp bytes c.huge := by
        generalize roundUp bytes c.huge = S at hround
        have hpos : 0 < c.huge := Nat.pow_pos (by omega)
        have hle : c.huge ≤ 2 ^ 42 := Nat.pow_le_pow_right (by omega) (by have := hc.huge; have := hc.mmap; omega)
        unfold roundUp
        rw [Nat.mod_eq_of_lt (show S + c.huge - 1 < 2 ^ 64 by omega)]
        have e : S + c.huge - 1 = S + (c.huge - 1) := by omega
        rw [e, Nat.add_mod, hround.2.1, Nat.zero_add, Nat.mod_mod, Nat.mod_eq_of_lt (by omega)]
        omega
      rw [hrr]
      generalize roundUp bytes c.huge = S at *
      rw [if_neg (by omega), if_neg (by omega)]
      have hmx2 : max (2 ^ max i c.hugeBits) c.huge = 2 ^ max i c.hugeBits := by
        show max (2 ^ max i c.hugeBits) (2 ^ c.hugeBits) = _
        rw [max_pow]; congr 1; omega
      have hsub : p + S - S = p := by omega
      have haa : p % 2 ^ max i c.hugeBits = 0 := g.aligned
      rw [hmx2, hsub, haa, Nat.sub_zero, if_neg (by omega)]
      rw [if_neg (by rw [Decidable.not_not]; exact mod_of_le (Nat.le_trans hc.page (Nat.le_max_right _ _)) haa)]
      rw [hp1, if_neg (by decide), if_neg (by omega)]
      dsimp only
      have hsub2 : p + S - p = S := by omega
      rw [hsub2, if_pos rfl]
      exact ⟨_, _, rfl⟩
    · rename_i hl
      have hl' : ¬ c.large bytes al := hl
      have e1 : c.askSize bytes al = c.minMmap := by unfold Cfg.askSize; rw [if_neg hl']
      have e2 : c.askAlign bytes al = c.minMmap := by unfold Cfg.askAlign; rw [if_neg hl']
      rw [e1, e2] at hE hk
      rw [hsup, if_neg (by decide), hal]
      cases hreg : w.region t with
      | none => exact hfresh hf (hI.next t) hl' hE hk
      | some r =>
        dsimp only
        have hcu := hr r hreg
        unfold Region.allocAny
        rw [hcu, if_neg (by decide)]
        obtain ⟨r', res, k1, -, -, -, k5, -, -⟩ := alloc_spec (i := i) (prot := o.prot1) hc (hI.reg t r hreg) hcu hb
        rw [k1]
        cases res with
        | some p => exact ⟨_, _, rfl⟩
        | none =>
          dsimp only
          refine hfresh hf (hI.next t) hl' (hE.congr rfl rfl) ?_
          rw [hk]
          rfl
  obtain ⟨w', p, h1⟩ := hmain
  obtain ⟨w2, res2, h2, h3⟩ := region_outcome hc hI hb0 hsup hal hE hc1 hc2
  rw [h1] at h2
  cases h2
  obtain ⟨a, -⟩ := h3.ans p rfl
  refine ⟨{ w' with given := p :: w'.given }, p.1, p.2, ?_⟩
  unfold allocate
  dsimp only
  rw [if_neg (by rw [Nat.mod_eq_of_lt (by omega)]; omega), h1]
  dsimp only
  have hsz := a.size
  rw [if_pos ⟨by show _ < 2 ^ 48; have := a.top; omega, a.tagged _ (Nat.le_refl _) (by omega)⟩]

theorem unmap_mapped {c : Cfg} {w w1 : W} {size al : Nat} {t : Tag} {o : Oracle} {p : Nat}
    (h : mmapLocked c w size al t o = some (w1, some p)) : w1.mapped = (p, size) :: w.mapped := by
  unfold mmapLocked at h
  split at h
  · cases h
  · split at h
    · cases h
    · simp only [Option.map_eq_some_iff] at h
      obtain ⟨r, -, h⟩ := h
      split at h
      · simp at h
      · simp only [Prod.mk.injEq, Option.some.injEq] at h
        obtain ⟨rfl, rfl⟩ := h
        rfl

theorem unmapped_none {c : Cfg} {w w1 : W} {size al : Nat} {t : Tag} {o : Oracle}
    (h : mmapLocked c w size al t o = some (w1, none)) : w1.mapped = w.mapped := by
  unfold mmapLocked at h
  split at h
  · cases h
  · split at h
    · cases h
    · simp only [Option.map_eq_some_iff] at h
      obtain ⟨r, -, h⟩ := h
      split at h
      · simp only [Prod.mk.injEq, and_true] at h
        rw [← h]
      · simp at h

/-- C37: if no region can be created for a new mapping, the mapping is given back to the kernel: the process has the same
mappings as before. -/
theorem unmapped_if_no_region {c : Cfg} {w w' : W} {bytes al : Nat} {t : Tag} {o : Oracle} {res : Option (Nat × Nat)}
    (hcr : o.create = false) (hs : allocate c w bytes al t o = some (w', res)) : w'.mapped = w.mapped := by
  have hfresh : ∀ {w w' : W} {res}, allocFresh c w bytes (max al c.page) t o = some (w', res) → w'.mapped = w.mapped := by
    intro w w' res h
    unfold allocFresh at h
    split at h
    · cases h
    · rename_i w1 hm
      cases h
      exact unmapped_none hm
    · rename_i w1 ptr hm
      rw [hcr] at h
      simp only [Bool.not_false, if_true, Option.some.injEq, Prod.mk.injEq] at h
      rw [← h.1]
      show w1.mapped.erase _ = _
      rw [unmap_mapped hm, List.erase_cons_head]
  have hreg : ∀ {w' : W} {res}, allocFromRegion c w bytes (max al c.page) t o = some (w', res) → w'.mapped = w.mapped := by
    intro w' res h
    unfold allocFromRegion at h
    split at h
    · cases h; rfl
    · split at h
      · unfold allocLarge at h
        dsimp only at h
        split at h
        · cases h; rfl
        · split at h
          · cases h
          · rename_i w1 hm
            cases h
            exact unmapped_none hm
          · rename_i w1 ptr hm
            rw [hcr] at h
            simp only [Bool.not_false, if_true, Option.some.injEq, Prod.mk.injEq] at h
            rw [← h.1]
            show w1.mapped.erase _ = _
            rw [unmap_mapped hm, List.erase_cons_head]
      · split at h
        · cases h
        · split at h
          · exact hfresh h
          · split at h
            · cases h
            · cases h; rfl
            · exact (hfresh (w := W.setRegion _ _ _) h)
  unfold allocate at hs
  dsimp only at hs
  split at hs
  · cases hs; rfl
  · split at hs
    · cases hs
    · rename_i h; cases hs; exact hreg h
    · rename_i h
      split at hs
      · have h2 := hreg h
        cases hs
        exact h2
      · cases hs

/-! ### The assumptions of the other components -/

/-- What the metadata arena assumes of the system allocator (`Verif.Arena.SysOK`) holds, if what it has was returned for it. -/
theorem arena_assumption {c : Cfg} {w w' : W} {cfg : Arena.Cfg} {aw : Arena.W} {bytes al : Nat} {o : Oracle} {res : Option (Nat × Nat)}
    (hc : c.OK) (hw : Reach c w) (hsys : ∀ s ∈ aw.sys, s ∈ w.given)
    (hp : Pre c w (.allocate (Arena.askSize bytes) (Arena.askAlign cfg al) .metadata o)) (hpos : 0 < Arena.askAlign cfg al)
    (hs : allocate c w (Arena.askSize bytes) (Arena.askAlign cfg al) .metadata o = some (w', res)) :
    Arena.SysOK cfg aw bytes al res := by
  cases res with
  | none => trivial
  | some v =>
    obtain ⟨p, n⟩ := v
    obtain ⟨a1, a2, -, a4, -, -, a7⟩ := allocate_ok hc hw hp hs
    exact ⟨a4, a1, a2 hpos, fun s hs => a7 s (hsys s hs)⟩

/-- The hugepages of a range, as `AllocateRange` (huge_allocator.cc:102-117) computes them. -/
def hugeRange (c : Cfg) (p : Nat × Nat) : HugeAddressMap.Rng := ⟨p.1 / c.huge, p.2 / c.huge⟩

/-- What the hugepage allocator assumes (`Verif.HugeAllocator.SysOK`) holds for the default region factory, if what it has
was returned for it. -/
theorem huge_assumption {c : Cfg} {w w' : W} {t : Tag} {n : Nat} {o : Oracle} {res : Option (Nat × Nat)} {l : List (Nat × Nat)}
    (hc : c.OK) (hw : Reach c w) (hl : ∀ g ∈ l, g ∈ w.given) (hlh : ∀ g ∈ l, g.1 % c.huge = 0 ∧ g.2 % c.huge = 0)
    (hp : Pre c w (.allocate (n * c.huge) c.huge t o)) (hf : w.custom = false) (hr : ∀ r, w.region t = some r → r.custom = false)
    (hs : allocate c w (n * c.huge) c.huge t o = some (w', res)) :
    HugeAllocator.SysOK (l.map (hugeRange c)) n (res.map (hugeRange c)) := by
  intro r hr'
  cases res with
  | none => cases hr'
  | some v =>
    obtain ⟨p, m⟩ := v
    obtain ⟨a1, a2, -, a4, -, -, a7⟩ := allocate_ok hc hw hp hs
    obtain ⟨b1, b2⟩ := whole_hugepages hc hw hp hf hr hs
    have hpos : 0 < c.huge := Nat.pow_pos (by omega)
    simp only [Option.map_some, Option.some.injEq] at hr'
    subst hr'
    obtain ⟨P, rfl⟩ := Nat.dvd_of_mod_eq_zero b1
    obtain ⟨M, rfl⟩ := Nat.dvd_of_mod_eq_zero b2
    unfold hugeRange
    dsimp only
    rw [Nat.mul_div_cancel_left _ hpos, Nat.mul_div_cancel_left _ hpos]
    refine ⟨?_, ?_, ?_⟩
    · rw [Nat.mul_comm] at a1
      exact Nat.le_of_mul_le_mul_left a1 hpos
    · intro h0
      subst h0
      omega
    · rintro q ⟨hq1, hq2⟩ ⟨r2, hr2, hq3, hq4⟩
      obtain ⟨g, hg, rfl⟩ := List.mem_map.1 hr2
      have hd := a7 g (hl g hg)
      obtain ⟨h1, h2⟩ := hlh g hg
      obtain ⟨g1, g2⟩ := g
      obtain ⟨G, hG⟩ := Nat.dvd_of_mod_eq_zero h1
      obtain ⟨N, hN⟩ := Nat.dvd_of_mod_eq_zero h2
      dsimp only at hG hN hq1 hq2 hq3 hq4
      subst hG hN
      rw [Nat.mul_div_cancel_left _ hpos] at hq3 hq4
      rw [Nat.mul_div_cancel_left _ hpos] at hq4
      refine hd (c.huge * q) ⟨⟨Nat.mul_le_mul_left _ hq1, ?_⟩, Nat.mul_le_mul_left _ hq3, ?_⟩
      · dsimp only; rw [← Nat.mul_add]; exact Nat.mul_lt_mul_of_pos_left hq2 hpos
      · dsimp only; rw [← Nat.mul_add]; exact Nat.mul_lt_mul_of_pos_left hq4 hpos

/-! ### Release -/

theorem down_page (c : Cfg) (n : Nat) : (n - n % c.page) % c.page = 0 ∧ n - n % c.page ≤ n := down_spec

/-- C53: the kernel is only told about whole pages inside the range that is to be released. -/
theorem release_inside {c : Cfg} {pref : Pref} {plain munlock : Bool} {start length : Nat} {a1 a2 : RelAns} {p n : Nat}
    (h : (release c pref plain start length a1 a2 munlock).range = some (p, n)) :
    start ≤ p ∧ p + n ≤ start + length ∧ p % c.page = 0 ∧ n % c.page = 0 ∧ 0 < n := by
  have hpos : 0 < c.page := Nat.pow_pos (by omega)
  have hr : ¬ (start + length - (start + length) % c.page ≤ start + c.page - 1 - (start + c.page - 1) % c.page) ∧
      p = start + c.page - 1 - (start + c.page - 1) % c.page ∧
      n = start + length - (start + length) % c.page - (start + c.page - 1 - (start + c.page - 1) % c.page) := by
    unfold release at h
    dsimp only at h
    split at h
    · cases h
    · rename_i hn
      refine ⟨hn, ?_⟩
      split at h
      · simp only [Option.some.injEq, Prod.mk.injEq] at h; exact ⟨h.1.symm, h.2.symm⟩
      · split at h
        · simp only [Option.some.injEq, Prod.mk.injEq] at h; exact ⟨h.1.symm, h.2.symm⟩
        · simp only [Option.some.injEq, Prod.mk.injEq] at h; exact ⟨h.1.symm, h.2.symm⟩
      · simp only [Option.some.injEq, Prod.mk.injEq] at h; exact ⟨h.1.symm, h.2.symm⟩
  obtain ⟨h0, rfl, rfl⟩ := hr
  have m1 := Nat.mod_lt (start + c.page - 1) hpos
  have d1 := down_page c (start + c.page - 1)
  have d2 := down_page c (start + length)
  refine ⟨by omega, ?_, d1.1, ?_, by omega⟩
  · have := d2.2
    omega
  · exact Nat.mod_eq_zero_of_dvd (Nat.dvd_sub (Nat.dvd_of_mod_eq_zero d2.1) (Nat.dvd_of_mod_eq_zero d1.1))

/-- C53: and about all of them: a page of the system that lies inside the range is part of what is released. -/
theorem release_all_pages {c : Cfg} {pref : Pref} {plain munlock : Bool} {start length : Nat} {a1 a2 : RelAns} {q : Nat}
    (hq : q % c.page = 0) (h1 : start ≤ q) (h2 : q + c.page ≤ start + length) :
    ∃ p n, (release c pref plain start length a1 a2 munlock).range = some (p, n) ∧ p ≤ q ∧ q + c.page ≤ p + n := by
  have hpos : 0 < c.page := Nat.pow_pos (by omega)
  obtain ⟨k, rfl⟩ := Nat.dvd_of_mod_eq_zero hq
  -- rounding up the start, rounding down the end
  have hs : start + c.page - 1 - (start + c.page - 1) % c.page ≤ c.page * k := by
    have hd := Nat.div_add_mod (start + c.page - 1) c.page
    have e : start + c.page - 1 - (start + c.page - 1) % c.page = c.page * ((start + c.page - 1) / c.page) := by omega
    rw [e]
    apply Nat.mul_le_mul_left
    rw [Nat.div_le_iff_le_mul hpos, Nat.mul_comm]
    omega
  have he : c.page * k + c.page ≤ start + length - (start + length) % c.page := by
    have hd := Nat.div_add_mod (start + length) c.page
    have e : start + length - (start + length) % c.page = c.page * ((start + length) / c.page) := by omega
    rw [e, ← Nat.mul_succ]
    apply Nat.mul_le_mul_left
    rw [Nat.le_div_iff_mul_le hpos, Nat.mul_comm, Nat.mul_succ]
    exact h2
  have hr : (release c pref plain start length a1 a2 munlock).range =
      some (start + c.page - 1 - (start + c.page - 1) % c.page,
        start + length - (start + length) % c.page - (start + c.page - 1 - (start + c.page - 1) % c.page)) := by
    unfold release
    dsimp only
    rw [if_neg (by omega)]
    split
    · rfl
    · split <;> rfl
    · rfl
  exact ⟨_, _, hr, hs, by omega⟩

/-- C53: success is reported exactly if the last system call that gives the pages back succeeded: `MADV_REMOVE`, or the
calls the preference asks for, possibly after unlocking the pages. -/
theorem release_ok_iff {c : Cfg} {pref : Pref} {plain munlock : Bool} {start length : Nat} {a1 a2 : RelAns} :
    (release c pref plain start length a1 a2 munlock).ok = true ↔
      (∃ q, q % c.page = 0 ∧ start ≤ q ∧ q + c.page ≤ start + length) ∧
      (a1.remove = true ∨ (pref = .freeOnly ∧ a1.free = true) ∨
        ((pref = .dontNeed ∨ pref = .freeAndDontNeed) ∧ (a1.dontNeed = true ∨
          (plain = true ∧ munlock = true ∧ (a2.remove = true ∨ a2.dontNeed = true))))) := by
  have hpos : 0 < c.page := Nat.pow_pos (by omega)
  have hex : (∃ q, q % c.page = 0 ∧ start ≤ q ∧ q + c.page ≤ start + length) ↔
      ¬ (start + length - (start + length) % c.page ≤ start + c.page - 1 - (start + c.page - 1) % c.page) := by
    constructor
    · rintro ⟨q, h1, h2, h3⟩ hn
      obtain ⟨p, n, h4, -, -⟩ := release_all_pages (c := c) (pref := .never) (plain := true) (munlock := true)
        (a1 := ⟨true, true, true⟩) (a2 := ⟨true, true, true⟩) h1 h2 h3
      unfold release at h4
      dsimp only at h4
      rw [if_pos hn] at h4
      cases h4
    · intro hn
      have d1 := down_page c (start + c.page - 1)
      have d2 := down_page c (start + length)
      have m1 := Nat.mod_lt (start + c.page - 1) hpos
      refine ⟨_, d1.1, by omega, ?_⟩
      have hlt : start + c.page - 1 - (start + c.page - 1) % c.page < start + length - (start + length) % c.page := by omega
      obtain ⟨x, hx⟩ := Nat.dvd_of_mod_eq_zero d1.1
      obtain ⟨y, hy⟩ := Nat.dvd_of_mod_eq_zero d2.1
      rw [hx, hy] at hlt
      have hxy : x < y := Nat.lt_of_mul_lt_mul_left hlt
      have := Nat.mul_le_mul_left c.page (show x + 1 ≤ y from hxy)
      rw [Nat.mul_succ] at this
      omega
  rw [hex]
  unfold release
  dsimp only
  by_cases hn : start + length - (start + length) % c.page ≤ start + c.page - 1 - (start + c.page - 1) % c.page
  · rw [if_pos hn]
    simp [hn]
  · rw [if_neg hn]
    obtain ⟨r1, f1, d1⟩ := a1
    obtain ⟨r2, f2, d2⟩ := a2
    simp only [hn, not_false_eq_true, true_and]
    generalize start + length - (start + length) % c.page - (start + c.page - 1 - (start + c.page - 1) % c.page) = N
    generalize start + c.page - 1 - (start + c.page - 1) % c.page = P
    cases pref <;> cases plain <;> cases munlock <;> cases r1 <;> cases f1 <;> cases d1 <;> cases r2 <;> cases f2 <;> cases d2 <;> simp [releasePages]

/-- C53: an error is counted exactly if the kernel was asked and did not do it. -/
theorem release_counted {c : Cfg} {pref : Pref} {plain munlock : Bool} {start length : Nat} {a1 a2 : RelAns} :
    let r := release c pref plain start length a1 a2 munlock
    r.counted = (r.range.isSome && !r.ok) := by
  unfold release
  dsimp only
  split
  · rfl
  · split
    · rfl
    · split <;> rfl
    · rfl

end Verif.SystemAlloc
