import Verif.Frontend.Spec
import Verif.SizeMap.Props
import Verif.MemoryTag.Props
namespace Verif.Frontend
open Verif.SizeMap
open Verif.MemoryTag

/-- Two policies with the same alignment that select the same class group pick the same class for
every size up to the class's block size. -/
theorem class_in_group {cfg : Cfg} (hc : cfg.Shipped) {t : List Info} {leftover : Nat}
    {m : Maps} (hm : init cfg t leftover = .ok m) {p q : Policy} (hp : p.Valid cfg) (hq : q.Valid cfg)
    (hal : q.align = p.align) {size c bytes : Nat}
    (h : getSizeClass cfg m p size = some (.small c))
    (hb : m.classToSize[c]? = some bytes) {size' : Nat} (h1 : size ≤ size') (h2 : size' ≤ bytes)
    (hgrp : groupStart cfg p size = groupStart cfg q size') :
    getSizeClass cfg m q size' = some (.small c) := by
  have hnl : ¬ (cfg.maxSize < size ∨ cfg.pageSize < p.align) := by
    intro hn; rw [(large_iff cfg hc t leftover m hm p hp size).2 hn] at h; simp at h
  obtain ⟨by', hb', -, hmax, -⟩ := class_at_least_requested cfg hc t leftover m hm p hp size c h
  rw [hb] at hb'; simp at hb'; subst hb'
  obtain ⟨hl, hv, mo⟩ := init_inv hc.ok hm
  have hbig := hc.ok.big
  have g := goodSizes_of_valid (by omega) hl hv
  obtain ⟨b, d, e, a1, a2, a3, a4, a5, a6, a7, a8⟩ :=
    getSizeClass_small hc.ok hl hv mo hp (by omega) (show size ≤ cfg.maxSize by omega)
  obtain ⟨b', d', e', b1, b2, b3, b4, b5, b6, b7, b8⟩ :=
    getSizeClass_small hc.ok hl hv mo hq (by omega) (show size' ≤ cfg.maxSize by omega)
  rw [hal] at b7 b8
  rw [a1] at h; simp at h; subst h
  have hsz : m.classToSize[b * cfg.numBase + d]? = some e.size := by
    have hcl := (List.getElem?_eq_some_iff.1 a5).1
    rw [mo.sz, setRegister_get _ (by simpa using hl) a3 (by simpa using hcl), List.getElem?_map, a5]
    rfl
  rw [hb] at hsz; simp at hsz; subst hsz
  have : d = d' := by
    apply Classical.byContradiction
    intro hne
    rcases Nat.lt_or_gt_of_ne hne with hlt | hlt
    · exact b8 d e a4 hlt a5 ⟨h2, a7⟩
    · exact a8 d' e' b4 hlt b5 ⟨by omega, b7⟩
  subst this
  rw [b1]
  simp
  omega

/-- The block size of the chosen class depends only on size and alignment. -/
theorem class_size_eq {cfg : Cfg} (hc : cfg.Shipped) {t : List Info} {leftover : Nat}
    {m : Maps} (hm : init cfg t leftover = .ok m) {p q : Policy} (hp : p.Valid cfg) (hq : q.Valid cfg)
    (hal : q.align = p.align) {size c : Nat} (h : getSizeClass cfg m p size = some (.small c)) :
    ∃ c', getSizeClass cfg m q size = some (.small c') ∧ m.classToSize[c']? = m.classToSize[c]? := by
  have hnl : ¬ (cfg.maxSize < size ∨ cfg.pageSize < p.align) := by
    intro hn; rw [(large_iff cfg hc t leftover m hm p hp size).2 hn] at h; simp at h
  obtain ⟨c1, e1, a1, a2, a3, -⟩ := class_is_tightest cfg hc t leftover m hm p hp size (by omega) (by omega)
  obtain ⟨c2, e2, b1, b2, b3, -⟩ := class_is_tightest cfg hc t leftover m hm q hq size (by omega) (by omega)
  rw [a1] at h; simp at h; subst h
  refine ⟨c2, b1, ?_⟩
  rw [a3, b3]
  rw [hal] at b2
  have h1 := a2.2.2.2 e2 b2.1 b2.2.1 b2.2.2.1
  have h2 := b2.2.2.2 e1 a2.1 a2.2.1 a2.2.2.1
  rw [Nat.le_antisymm h1 h2]

theorem Pol.Valid.sm {env : Env} {p : Pol} (h : p.Valid env) : p.sm.Valid env.cfg :=
  ⟨h.pow2, h.sec, h.numa⟩

theorem ceil_ge (cfg : Cfg) (size : Nat) : size ≤ bytesToLengthCeil cfg size * cfg.pageSize := by
  unfold bytesToLengthCeil
  rw [Nat.shiftRight_eq_div_pow]
  change size ≤ (size / cfg.pageSize + _) * cfg.pageSize
  have h1 := Nat.div_add_mod size cfg.pageSize
  have h2 := Nat.mod_lt size (show 0 < cfg.pageSize from Nat.two_pow_pos _)
  rw [Nat.mul_comm] at h1
  split
  · rw [Nat.add_mul]; omega
  · rw [Nat.add_mul]; omega

theorem ceil_lt (cfg : Cfg) (size : Nat) :
    bytesToLengthCeil cfg size * cfg.pageSize < size + cfg.pageSize := by
  unfold bytesToLengthCeil
  rw [Nat.shiftRight_eq_div_pow]
  change (size / cfg.pageSize + _) * cfg.pageSize < _
  have h1 := Nat.div_add_mod size cfg.pageSize
  have h2 := Nat.mod_lt size (show 0 < cfg.pageSize from Nat.two_pow_pos _)
  rw [Nat.mul_comm] at h1
  split
  · rw [Nat.add_mul]; omega
  · rw [Nat.add_mul]; omega

theorem inBytes64_eq (cfg : Cfg) (n : Nat) (h : n * cfg.pageSize < 2 ^ 64) :
    inBytes64 cfg n = n * cfg.pageSize := by
  unfold inBytes64
  rw [Nat.shiftLeft_eq]
  exact Nat.mod_eq_of_lt h

/-- Where a live block came from, and for what request. -/
inductive Origin (env : Env) (p : Pol) (size : Nat) (b : Block) (cap : Nat) : Prop
  | cached (c : Nat) (t : Tag) (hc : getSizeClass env.cfg env.maps p.sm size = some (.small c))
      (hb : b.cls = c) (hs : b.sample = none) (hsz : env.maps.classToSize[c]? = some cap)
      (ht : tagFromSizeClass env.cfg env.activeParts c = some t) (htag : getMemoryTag b.addr = t.val)
      (h8 : 8 ∣ b.addr)
      (hpos : ∃ ss i, env.cfg.pageSize ∣ ss ∧ b.addr = ss + i * cap)
  | own (hb : b.cls = 0) (c : Nat) (hc : getSizeClass env.cfg env.maps p.sm size = some (.small c))
      (hsz : env.maps.classToSize[c]? = some cap)
      (hs : b.sample = some (mkSample p size cap false)) (hst : b.addr = b.spanStart)
      (htag : getMemoryTag b.addr = (sampledTag env p).val)
  | guarded (hb : b.cls = 0) (c bytes : Nat) (hsz : env.maps.classToSize[c]? = some bytes)
      (hcap : cap = size)
      (hc : getSizeClass env.cfg env.maps p.sm size = some (.small c))
      (hs : b.sample = some (mkSample p size bytes true))
      (htag : getMemoryTag b.addr = (sampledTag env p).val)
  | pages (t : Tag) (hb : b.cls = 0) (hst : b.addr = b.spanStart)
      (hc : getSizeClass env.cfg env.maps p.sm size = some .large)
      (hcap : cap = max (bytesToLengthCeil env.cfg size) 1 * env.cfg.pageSize)
      (hsb : b.spanBytes = cap)
      (hs : b.sample = none ∨ b.sample = some (mkSample p size cap false))
      (ht : largeTag env p = some t) (htag : getMemoryTag b.addr = t.val)
      (hpg : env.cfg.pageSize ∣ b.addr)

theorem fastAlloc_spec {env : Env} {t : List Info} (he : env.OK t) {p : Pol} (hp : p.Valid env)
    {h : Heap} {size : Nat} {ans : Ans} (ha : ans.OK env p h size) {h' : Heap} {b : Block} {cap : Nat}
    (hr : fastAlloc env p h size ans = .ok (h', some (b, cap))) :
    getSize env b = some cap ∧ size ≤ cap ∧ p.kind.align ∣ b.addr ∧ 0 < b.addr ∧
    b.addr + cap ≤ 2 ^ 48 ∧ b.addr < 2 ^ 48 ∧ Origin env p size b cap ∧
    h' = { h with mem := ans.mem, live := b :: h.live } := by
  obtain ⟨leftover, hm⟩ := he.maps
  have hsm := hp.sm
  have hps : env.cfg.pageSize ≤ 2 ^ 18 := by
    have := he.cfg.base
    simp only [baseConfigs, List.mem_cons, Prod.mk.injEq, List.not_mem_nil, or_false] at this
    unfold Cfg.pageSize
    exact Nat.pow_le_pow_right (by omega) (by omega)
  unfold fastAlloc at hr
  cases hg : getSizeClass env.cfg env.maps p.sm size with
  | none => rw [hg] at hr; cases hr
  | some r =>
    rw [hg] at hr
    cases r with
    | large =>
      have hprom := ha.large hg
      simp only at hr
      split at hr
      · cases hr
      · cases hl : ans.large with
        | null =>
          rw [hl] at hr; unfold handleOom at hr; simp only at hr
          cases hoo : p.oom <;> rw [hoo] at hr <;> cases hr
        | pages addr sampled =>
          rw [hl] at hr hprom
          obtain ⟨q1, q2, ⟨tg, q3, q3'⟩, q4, q5⟩ := hprom
          have hib := inBytes64_eq env.cfg (max (bytesToLengthCeil env.cfg size) 1) (by omega)
          have hge := ceil_ge env.cfg size
          have hmul : bytesToLengthCeil env.cfg size * env.cfg.pageSize ≤
              max (bytesToLengthCeil env.cfg size) 1 * env.cfg.pageSize :=
            Nat.mul_le_mul_right _ (Nat.le_max_left _ _)
          simp only [hib, Except.ok.injEq, Prod.mk.injEq, Option.some.injEq] at hr
          obtain ⟨rfl, rfl, rfl⟩ := hr
          refine ⟨?_, by omega, q2, q4, q5, ?_, ?_, rfl⟩
          rotate_left
          · show addr < 2 ^ 48
            have : 1 * env.cfg.pageSize ≤ max (bytesToLengthCeil env.cfg size) 1 * env.cfg.pageSize :=
              Nat.mul_le_mul_right _ (Nat.le_max_right _ _)
            have := Nat.two_pow_pos env.cfg.pageShift
            unfold Cfg.pageSize at *
            omega
          rotate_left
          · unfold getSize
            simp only [ne_eq, not_true_eq_false, if_false]
            cases sampled <;> simp [mkSample]
          · refine Origin.pages tg rfl rfl hg rfl rfl ?_ q3 q3' q1
            cases sampled <;> simp
    | small c =>
      simp only at hr
      obtain ⟨bytes, hb1, hb2, hb3, hb4⟩ :=
        class_at_least_requested env.cfg he.cfg t leftover env.maps hm p.sm hsm size c hg
      rw [hb1] at hr
      have hprom := ha.small c bytes hg hb1
      have hc0 : c ≠ 0 := by
        have hnl : ¬ (env.cfg.maxSize < size ∨ env.cfg.pageSize < p.sm.align) := by
          intro hn; rw [(large_iff env.cfg he.cfg t leftover env.maps hm p.sm hsm size).2 hn] at hg; simp at hg
        obtain ⟨c', e, h1, -, -, -, -, h2, -⟩ :=
          class_is_tightest env.cfg he.cfg t leftover env.maps hm p.sm hsm size (by omega) (by omega)
        rw [h1] at hg; simp at hg; omega
      simp only at hr
      cases hs : ans.small with
      | null =>
        rw [hs] at hr; unfold handleOom at hr; simp only at hr
        cases hoo : p.oom <;> rw [hoo] at hr <;> cases hr
      | cached addr ss sb =>
        rw [hs] at hr hprom
        obtain ⟨⟨pg, rfl⟩, ⟨i, rfl⟩, ⟨tg, q3, q3'⟩, q4, q5⟩ := hprom
        simp only [Except.ok.injEq, Prod.mk.injEq, Option.some.injEq] at hr
        obtain ⟨rfl, rfl, rfl⟩ := hr
        have hal := class_blocks_aligned env.cfg he.cfg t leftover env.maps hm p.sm hsm size c hg
          bytes hb1 pg i
        rw [Nat.mul_comm pg] at hal
        refine ⟨?_, hb2, hal.1, q4, q5, by simp only; omega, ?_, rfl⟩
        · unfold getSize; simp [hc0, hb1]
        · exact Origin.cached c tg hg rfl rfl hb1 q3 q3' hal.2 ⟨_, i, Nat.dvd_mul_right _ pg, rfl⟩
      | ownSpan addr =>
        rw [hs] at hr hprom
        obtain ⟨⟨pg, rfl⟩, q3, q4, q5⟩ := hprom
        simp only [Except.ok.injEq, Prod.mk.injEq, Option.some.injEq] at hr
        obtain ⟨rfl, rfl, rfl⟩ := hr
        have hal := class_blocks_aligned env.cfg he.cfg t leftover env.maps hm p.sm hsm size c hg
          bytes hb1 pg 0
        rw [Nat.mul_comm pg] at hal
        simp only [Nat.zero_mul, Nat.add_zero] at hal
        refine ⟨?_, hb2, hal.1, q4, q5, by simp only; omega, ?_, rfl⟩
        · unfold getSize; simp [mkSample]
        · exact Origin.own rfl c hg hb1 rfl rfl q3
      | guarded addr ss =>
        rw [hs] at hr hprom
        obtain ⟨q1, q3, q4, q5⟩ := hprom
        simp only [Except.ok.injEq, Prod.mk.injEq, Option.some.injEq] at hr
        obtain ⟨rfl, rfl, rfl⟩ := hr
        refine ⟨?_, Nat.le_refl _, q1, q4, by show addr + size ≤ _; omega, by show addr < _; omega, ?_, rfl⟩
        · unfold getSize; simp [mkSample]
        · exact Origin.guarded rfl c bytes hb1 rfl hg rfl q3

end Verif.Frontend
