import Verif.Frontend.Lemmas
namespace Verif.Frontend
open Verif.SizeMap
open Verif.MemoryTag

theorem parts_cases {cfg : Cfg} (h : cfg.Shipped) :
    (cfg.numaParts = 1 ∧ cfg.secParts = 1) ∨ (cfg.numaParts = 1 ∧ cfg.secParts = 2) ∨
    (cfg.numaParts = 2 ∧ cfg.secParts = 1) := by
  have := h.parts
  simpa using this

theorem numBase_pos {cfg : Cfg} (h : cfg.Shipped) : 0 < cfg.numBase := by
  have := h.base
  simp only [baseConfigs, List.mem_cons, Prod.mk.injEq, List.not_mem_nil, or_false] at this
  omega

theorem parts_sec {cfg : Cfg} (h : cfg.Shipped) : cfg.secParts = 1 ∨ cfg.secParts = 2 := by
  rcases parts_cases h with h | h | h <;> omega

/-- The class group of a request is the expanded (cold) one, or that of a normal partition `g`; in
the latter case requests that name partition `g` outright (hot, same family) get the same group. -/
theorem group_cases {env : Env} {t : List Info} (he : env.OK t) {p : Pol} (hp : p.Valid env)
    (size : Nat) :
    (env.cfg.hasExpanded = true ∧ p.cold = true ∧ size ≠ 0 ∧
      groupStart env.cfg p.sm size = env.cfg.expandedStart) ∨
    ∃ g, g < env.cfg.normalParts ∧ groupStart env.cfg p.sm size = g * env.cfg.numBase ∧
      (env.activeParts = 1 → g = 0) ∧
      (env.activeParts ≠ 1 → env.cfg.normalParts = 2) ∧
      ∀ size', groupStart env.cfg (({ p with cold := false } : Pol).inPartition env.cfg g).sm size' =
        g * env.cfg.numBase := by
  have hsec := hp.sec
  have hnuma := hp.numa
  have hna := hp.numaActive
  have hes := he.sec
  have heo := he.one
  unfold groupStart hotStart Cfg.normalParts
  simp only [Pol.sm, Pol.inPartition]
  have hcn := hp.coldNew
  rcases parts_cases he.cfg with ⟨h1, h2⟩ | ⟨h1, h2⟩ | ⟨h1, h2⟩
  · have ha := heo h2 h1
    simp only [h1, h2] at *
    have hs0 : p.secPart = 0 := by omega
    have hn0 : p.numaPart = 0 := by omega
    by_cases hz : env.cfg.hasExpanded = true ∧ p.cold = true ∧ size ≠ 0
    · left; simp [hz, hs0]
    · right
      refine ⟨0, ?_⟩
      simp only [ha, hs0, hn0]
      cases hex : env.cfg.hasExpanded <;> cases hcold : p.cold <;> simp_all
  · have ha := hes h2
    simp only [h1, h2] at *
    have hn0 : p.numaPart = 0 := by omega
    have hs01 : p.secPart = 0 ∨ p.secPart = 1 := by omega
    cases hact : env.cfg.partActive <;> cases hex : env.cfg.hasExpanded <;> cases hcold : p.cold <;>
      rcases hs01 with hs | hs <;> cases hfull : env.cfg.modeFull <;> by_cases hnw : p.kind.type = .new <;>
      by_cases hz : size = 0 <;> simp_all
    all_goals first
      | (refine ⟨0, ?_⟩; simp; done)
      | (refine ⟨1, ?_⟩; simp; done)
      | (refine Or.inr ⟨0, ?_⟩; simp; done)
      | (refine Or.inr ⟨1, ?_⟩; simp; done)
  · simp only [h1, h2] at *
    have hs0 : p.secPart = 0 := by omega
    have hn01 : p.numaPart = 0 ∨ p.numaPart = 1 := by omega
    cases hex : env.cfg.hasExpanded <;> cases hcold : p.cold <;> rcases hn01 with hn | hn <;>
      by_cases hz : size = 0 <;> simp_all
    all_goals first
      | (refine ⟨0, ?_⟩; simp; done)
      | (refine ⟨1, ?_⟩; simp; done)

theorem getMemoryTag_and_two {ptr : Nat} {tg : Tag} (h : getMemoryTag ptr = tg.val)
    {g : Nat} (ht : multiNormalTag g = some tg) : (getMemoryTag ptr &&& 2 ≠ 0 ↔ g = 1) := by
  rw [h]
  match g, ht with
  | 0, ht => cases ht; decide
  | 1, ht => cases ht; decide

/-- Sized free of an object from a cache computes the class the object came from. -/
theorem sized_cached {env : Env} {t : List Info} (he : env.OK t) {p q : Pol} (hp : p.Valid env)
    (hk : q.kind = p.kind) {size size' c bytes : Nat} {tg : Tag} {b : Block}
    (hg : getSizeClass env.cfg env.maps p.sm size = some (.small c))
    (hb : env.maps.classToSize[c]? = some bytes) (h1 : size ≤ size') (h2 : size' ≤ bytes)
    (ht : tagFromSizeClass env.cfg env.activeParts c = some tg)
    (htag : getMemoryTag b.addr = tg.val) (h8 : 8 ∣ b.addr) (h0 : 0 < b.addr)
    (h48 : b.addr < 2 ^ 48) :
    doFreeWithSize env q size' b = .ok (.small c) := by
  obtain ⟨leftover, hm⟩ := he.maps
  have hnb := numBase_pos he.cfg
  have hsm := hp.sm
  have hcr : groupStart env.cfg p.sm size < c ∧ c < groupStart env.cfg p.sm size + env.cfg.numBase := by
    have hnl : ¬ (env.cfg.maxSize < size ∨ env.cfg.pageSize < p.sm.align) := by
      intro hn; rw [(large_iff env.cfg he.cfg t leftover env.maps hm p.sm hsm size).2 hn] at hg; simp at hg
    obtain ⟨c', e, k1, -, -, -, -, k2, k3, -⟩ :=
      class_is_tightest env.cfg he.cfg t leftover env.maps hm p.sm hsm size (by omega) (by omega)
    rw [k1] at hg; simp at hg; omega
  have hroute := route_by_tag tg b.addr h48 h8 (by omega) htag
  have hsp : 0 < env.cfg.secParts ∧ 0 < env.cfg.numaParts := by
    rcases parts_cases he.cfg with h | h | h <;> omega
  -- the class lookup of `fast_free_with_size`
  have hlook : ∀ (q' : Pol), q'.kind = p.kind → q'.secPart < env.cfg.secParts →
      q'.numaPart < env.cfg.numaParts →
      groupStart env.cfg p.sm size = groupStart env.cfg q'.sm size' →
      getSizeClass env.cfg env.maps q'.sm size' = some (.small c) := by
    intro q' hk' hs hn hgr
    refine class_in_group he.cfg hm hsm ⟨?_, hs, hn⟩ ?_ hg hb h1 h2 hgr
    · show ∃ k, q'.kind.align = 2 ^ k
      rw [hk']; exact hp.pow2
    · show q'.kind.align = p.kind.align
      rw [hk']
  rcases group_cases he hp size with ⟨hex, hcold, hz, hgr⟩ | ⟨g, hglt, hgr, hg1, hg2, hg3⟩
  · -- the expanded classes
    rw [hgr] at hcr
    have : tg = .cold := by
      unfold tagFromSizeClass at ht
      rw [if_pos (by simp [hex]; omega)] at ht
      simpa using ht.symm
    subst this
    simp only at hroute
    unfold doFreeWithSize
    rw [hroute]
    unfold fastFreeWithSize
    simp only [Bool.true_or, if_true]
    rw [hlook (({ q with cold := true } : Pol).inPartition env.cfg 0) hk
      (by simp [Pol.inPartition]; omega) (by simp [Pol.inPartition]; omega)]
    rw [hgr]
    unfold groupStart
    simp [Pol.sm, Pol.inPartition, hex]
    intro hz'; omega
  · rw [hgr] at hcr
    have hge : ¬ (c ≥ env.cfg.expandedStart) := by
      have : (g + 1) * env.cfg.numBase ≤ env.cfg.expandedStart := by
        unfold Cfg.expandedStart
        rw [Nat.mul_comm]
        exact Nat.mul_le_mul_left _ hglt
      rw [Nat.add_mul] at this
      omega
    have hdiv : c / env.cfg.numBase = g := by
      rw [Nat.div_eq_iff hnb]; constructor <;> omega
    have htg : multiNormalTag g = some tg := by
      unfold tagFromSizeClass at ht
      rw [if_neg (by simp [hge])] at ht
      by_cases ha : env.activeParts = 1
      · rw [if_pos ha] at ht; rw [hg1 ha]; exact ht
      · rw [if_neg ha, hdiv] at ht; exact ht
    have hfast : ptrKind b.addr = .fastNormal := by
      rw [hroute]
      match g, htg with
      | 0, htg => cases htg; rfl
      | 1, htg => cases htg; rfl
    have hpart := (partition_roundtrip env.cfg g b.addr tg hglt htg htag).2
    unfold doFreeWithSize
    rw [hfast]
    unfold fastFreeWithSize
    simp only [Bool.false_or, hpart]
    have hgg : (if decide (g = 0) = true then 0 else 1) = g := by
      match g, htg with
      | 0, _ => rfl
      | 1, _ => rfl
    rw [hgg]
    rw [hlook (({ q with cold := false } : Pol).inPartition env.cfg g) hk]
    · show (g - g % env.cfg.numaParts) / env.cfg.numaParts < env.cfg.secParts
      have hg12 : g = 0 ∨ g = 1 := by
        match g, htg with
        | 0, _ => exact Or.inl rfl
        | 1, _ => exact Or.inr rfl
      unfold Cfg.normalParts at hglt
      rcases parts_cases he.cfg with h | h | h <;> simp only [h.1, h.2] at hglt ⊢ <;>
        rcases hg12 with rfl | rfl <;> simp at hglt ⊢
    · exact Nat.mod_lt _ hsp.2
    · rw [hgr]
      have := hg3 size'
      rw [← this]
      unfold groupStart Pol.sm Pol.inPartition
      simp [hk]

end Verif.Frontend
