import Verif.Frontend.Lemmas2
namespace Verif.Frontend
open Verif.SizeMap
open Verif.MemoryTag

theorem high_zero {x : Nat} (h : x < 2 ^ 48) : x &&& kBadHighMask = 0 := by
  apply Nat.eq_of_testBit_eq
  intro i
  rw [Nat.testBit_and, Nat.zero_testBit]
  by_cases hi : 48 ≤ i
  · rw [Nat.testBit_lt_two_pow (Nat.lt_of_lt_of_le h (Nat.pow_le_pow_right (by omega) hi))]
    rfl
  · have : ∀ i : Fin 48, kBadHighMask.testBit i.val = false := by decide +kernel
    rw [this ⟨i, by omega⟩]
    simp

theorem low_zero {x : Nat} (h : 8 ∣ x) : x &&& kBadAlignmentMask = 0 := by
  have := Nat.and_two_pow_sub_one_eq_mod x 3
  show x &&& 7 = 0
  rw [show (7 : Nat) = 2 ^ 3 - 1 from rfl, this]
  exact Nat.mod_eq_zero_of_dvd h

theorem pageSize_dvd8 {cfg : Cfg} (h : cfg.Shipped) : 8 ∣ cfg.pageSize := by
  have := h.base
  simp only [baseConfigs, List.mem_cons, Prod.mk.injEq, List.not_mem_nil, or_false] at this
  unfold Cfg.pageSize
  exact Nat.pow_dvd_pow 2 (show 3 ≤ cfg.pageShift by omega)

theorem pageSize_dvd16 {cfg : Cfg} (h : cfg.Shipped) : 16 ∣ cfg.pageSize := by
  have := h.base
  simp only [baseConfigs, List.mem_cons, Prod.mk.injEq, List.not_mem_nil, or_false] at this
  unfold Cfg.pageSize
  exact Nat.pow_dvd_pow 2 (show 4 ≤ cfg.pageShift by omega)

theorem pageSize_pos (cfg : Cfg) : 0 < cfg.pageSize := Nat.two_pow_pos _

/-- The family of calls that may free what kind `k` allocated: same kind, or any unsized C-family
call for a C-family allocation. -/
def FreeMatches (k allocated : Kind) : Prop :=
  k = allocated ∨ (k.type ≠ .new ∧ allocated.type ≠ .new)

theorem sampledTag_cases (env : Env) (p : Pol) :
    sampledTag env p = .sampled ∨ sampledTag env p = .sampledP1 := by
  unfold sampledTag; split <;> simp

theorem largeTag_cases {env : Env} {p : Pol} {t : Tag} (h : largeTag env p = some t) :
    t = .cold ∨ t = .normalP0 ∨ t = .normalP1 := by
  unfold largeTag at h
  split at h
  · simp at h; simp [← h]
  · split at h
    · unfold multiNormalTag at h
      split at h <;> simp at h <;> simp [← h]
    · simp at h; simp [← h]

theorem sampled_mem {env : Env} {p : Pol} {a : Nat} (h : getMemoryTag a = (sampledTag env p).val) :
    isSampledMemory a = true :=
  (sampled_exact _ a h).2 (sampledTag_cases env p)

/-- A pointer with a sampled tag is neither normal nor cold, whatever its low bits. -/
theorem sampled_irregular {env : Env} {p : Pol} {a : Nat} (h : getMemoryTag a = (sampledTag env p).val)
    (h0 : 0 < a) (h48 : a < 2 ^ 48) : ptrKind a = .irregular := by
  have h64 : a < 2 ^ 64 := by omega
  have h1 : ptrKind a ≠ .fastNormal := fun hk => by
    have hn := (normal_exact _ a h).1 ((fast_free_test a h64).1 hk).2.2
    rcases sampledTag_cases env p with e | e <;> rw [e] at hn <;> simp at hn
  have h2 : ptrKind a ≠ .cold := fun hk => by
    have hn := ((cold_free_test a h64).1 hk).2.2
    rw [h] at hn
    rcases sampledTag_cases env p with e | e <;> rw [e] at hn <;> revert hn <;> decide
  have h3 : ptrKind a ≠ .null := by
    unfold ptrKind
    rw [if_neg (show ¬ a = 0 by omega)]
    split
    · split <;> simp
    · simp
  generalize ptrKind a = k at *
  cases k <;> simp_all

theorem large_kind {env : Env} {p : Pol} {t : Tag} {a : Nat} (ht : largeTag env p = some t)
    (h : getMemoryTag a = t.val) (h8 : 8 ∣ a) (h0 : 0 < a) (h48 : a < 2 ^ 48) :
    ptrKind a = .fastNormal ∨ ptrKind a = .cold := by
  have := route_by_tag t a h48 h8 (by omega) h
  rcases largeTag_cases ht with rfl | rfl | rfl <;> simp at this <;> simp [this]

/-- Unsized free sends every block home. -/
theorem doFree_home {env : Env} {t : List Info} (he : env.OK t) {p : Pol} (hp : p.Valid env) {size cap : Nat}
    {b : Block} (ho : Origin env p size b cap) (h0 : 0 < b.addr) (h48 : b.addr < 2 ^ 48) {k : Kind}
    (hk : FreeMatches k p.kind) : doFree env k b = .ok b.home := by
  have hmatch1 : simplifyType k.type = simplifyType p.kind.type := by
    rcases hk with rfl | ⟨h1, h2⟩
    · rfl
    · cases e1 : k.type <;> cases e2 : p.kind.type <;> simp_all [simplifyType]
  have hmatch2 : k.type = .new → k.type = p.kind.type ∧ k.explicitAlign = p.kind.explicitAlign := by
    rcases hk with rfl | ⟨h1, h2⟩
    · simp
    · intro h; contradiction
  -- checks of the free path for unsized frees
  have hchk : ∀ bytes g, b.sample = none ∨ (b.sample = some (mkSample p size bytes g) ∧
      (g = false → b.addr = b.spanStart)) → unsampleChecks env k none b = .ok () := by
    intro bytes g hs
    unfold unsampleChecks
    rcases hs with hs | ⟨hs, hst⟩
    · rw [hs]
    · rw [hs]
      have e0 : ¬ (simplifyType k.type ≠ simplifyType (mkSample p size bytes g).type) :=
        fun hh => hh hmatch1
      have e1 : ¬ (b.addr ≠ b.spanStart ∧ (mkSample p size bytes g).guarded = false) :=
        fun hh => hh.1 (hst hh.2)
      have e2 : ¬ (((none : Option Nat).isSome = true ∨ k.type = .new) ∧
          (k.type ≠ (mkSample p size bytes g).type ∨
            k.explicitAlign ≠ (mkSample p size bytes g).align)) := by
        rintro ⟨h1, h2⟩
        simp at h1
        have := hmatch2 h1
        simp [mkSample, ← this.1, ← this.2] at h2
      simp only [Bool.false_eq_true, if_false]
      rw [if_neg e0, if_neg e1, if_neg e2]
  cases ho with
  | cached c tg hc hb hs hsz ht htag h8 hpos =>
    subst hb
    have hc0 : b.cls ≠ 0 := by
      obtain ⟨leftover, hm⟩ := he.maps
      have hnl : ¬ (env.cfg.maxSize < size ∨ env.cfg.pageSize < p.sm.align) := by
        intro hn; rw [(large_iff env.cfg he.cfg t leftover env.maps hm p.sm hp.sm size).2 hn] at hc; simp at hc
      obtain ⟨c', e, k1, -, -, -, -, k2, k3, -⟩ :=
        class_is_tightest env.cfg he.cfg t leftover env.maps hm p.sm hp.sm size (by omega) (by omega)
      rw [k1] at hc; simp at hc; omega
    unfold doFree Block.home
    have hnull : ptrKind b.addr ≠ .null := by
      unfold ptrKind
      rw [if_neg (show ¬ b.addr = 0 by omega)]
      split
      · split <;> simp
      · simp
    have hh := high_zero h48
    have hl := low_zero h8
    cases hkd : ptrKind b.addr <;> simp [hc0, hh, hl] <;> exact absurd hkd hnull
  | own hb c hc hsz hs hst htag =>
    unfold doFree
    rw [sampled_irregular htag h0 h48]
    have hsm := sampled_mem htag
    simp only [high_zero h48, hsm]
    simp only [ne_eq, not_true_eq_false, if_false, Bool.true_eq_false, and_false]
    unfold freePages
    rw [if_neg (by simp [hb]), hchk cap false (Or.inr ⟨hs, fun _ => hst⟩)]
    simp [hb, Block.home, Block.guarded, hs, mkSample, hst]
  | guarded hb c bytes hsz hcap hc hs htag =>
    unfold doFree
    rw [sampled_irregular htag h0 h48]
    have hsm := sampled_mem htag
    simp only [high_zero h48, hsm]
    simp only [ne_eq, not_true_eq_false, if_false, Bool.true_eq_false, and_false]
    unfold freePages
    rw [if_neg (by simp [hb]), hchk bytes true (Or.inr ⟨hs, by simp⟩)]
    simp [hb, Block.home, Block.guarded, hs, mkSample]
  | pages tg hb hst hc hcap hsb hs ht htag hpg =>
    have h8 : 8 ∣ b.addr := Nat.dvd_trans (pageSize_dvd8 he.cfg) hpg
    have hfp : freePages env k none b = .ok b.home := by
      unfold freePages
      rw [hchk cap false (hs.imp id fun h => ⟨h, fun _ => hst⟩)]
      rcases hs with hs | hs <;> simp [hb, Block.home, Block.guarded, hs, mkSample, hst]
    unfold doFree
    have hh := high_zero h48
    have hl := low_zero h8
    rcases large_kind ht htag h8 h0 h48 with e | e <;> rw [e] <;> simp [hb, hh, hl, hfp]

/-- Sized free, with a size the caller is entitled to pass, sends every block home. -/
theorem doFreeWithSize_home {env : Env} {t : List Info} (he : env.OK t) {p q : Pol} (hp : p.Valid env)
    {size cap : Nat} {b : Block} (ho : Origin env p size b cap) (h0 : 0 < b.addr)
    (h48 : b.addr < 2 ^ 48) (hk : q.kind = p.kind) {size' : Nat} (h1 : size ≤ size') (h2 : size' ≤ cap)
    (hs' : p.sizeRet = true ∨ b.sample = none ∨ size' = size) :
    doFreeWithSize env q size' b = .ok b.home := by
  have hsmp : ∀ g bytes, b.sample = some (mkSample p size bytes g) →
      (p.sizeRet = true → size' ≤ (mkSample p size bytes g).allocated) →
      (g = false → b.addr = b.spanStart) →
      unsampleChecks env q.kind (some size') b = .ok () := by
    intro g bytes hs hall hst
    unfold unsampleChecks
    rw [hs]
    have hA : (if (mkSample p size bytes g).sizeRet = true then
        !(decide ((mkSample p size bytes g).requested ≤ size') &&
          decide (size' ≤ (mkSample p size bytes g).allocated))
        else decide (size' ≠ (mkSample p size bytes g).requested)) = false := by
      cases hr : p.sizeRet
      · have : size' = size := by
          rcases hs' with h | h | h
          · rw [hr] at h; cases h
          · rw [hs] at h; cases h
          · exact h
        simp [mkSample, hr, this]
      · have h3 := hall hr
        have h4 : (mkSample p size bytes g).sizeRet = true := hr
        rw [if_pos h4]
        simp [h3]
        exact h1
    simp only [hA, Bool.false_eq_true, if_false]
    simp only [mkSample, hk, ne_eq, not_true_eq_false, if_false, or_self, and_false]
    rw [if_neg (by intro hh; exact hh.1 (hst hh.2))]
  cases ho with
  | cached c tg hc hb hs hsz ht htag h8 hpos =>
    subst hb
    have := sized_cached he hp hk hc hsz h1 h2 ht htag h8 h0 h48
    rw [this]
    have hc0 : b.cls ≠ 0 := by
      obtain ⟨leftover, hm⟩ := he.maps
      have hnl : ¬ (env.cfg.maxSize < size ∨ env.cfg.pageSize < p.sm.align) := by
        intro hn; rw [(large_iff env.cfg he.cfg t leftover env.maps hm p.sm hp.sm size).2 hn] at hc; simp at hc
      obtain ⟨c', e, k1, -, -, -, -, k2, k3, -⟩ :=
        class_is_tightest env.cfg he.cfg t leftover env.maps hm p.sm hp.sm size (by omega) (by omega)
      rw [k1] at hc; simp at hc; omega
    simp [Block.home, hc0]
  | own hb c hc hsz hs hst htag =>
    unfold doFreeWithSize
    rw [sampled_irregular htag h0 h48]
    simp only [sampled_mem htag, if_true]
    unfold freePages
    rw [hsmp false cap hs (by simp [mkSample]; omega) (fun _ => hst)]
    simp [hb, Block.home, Block.guarded, hs, mkSample, hst]
  | guarded hb c bytes hsz hcap hc hs htag =>
    unfold doFreeWithSize
    rw [sampled_irregular htag h0 h48]
    simp only [sampled_mem htag, if_true]
    unfold freePages
    rw [hsmp true bytes hs (by intro hr; simp [mkSample, hr]; omega) (by simp)]
    simp [hb, Block.home, Block.guarded, hs, mkSample]
  | pages tg hb hst hc hcap hsb hs ht htag hpg =>
    have h8 : 8 ∣ b.addr := Nat.dvd_trans (pageSize_dvd8 he.cfg) hpg
    obtain ⟨leftover, hm⟩ := he.maps
    have hlarge := (large_iff env.cfg he.cfg t leftover env.maps hm p.sm hp.sm size).1 hc
    have hfp : freePages env q.kind (some size') b = .ok b.home := by
      unfold freePages
      have : unsampleChecks env q.kind (some size') b = .ok () := by
        rcases hs with hs | hs
        · unfold unsampleChecks
          rw [hs]
          simp only [ite_eq_right_iff, reduceCtorEq, imp_false, hsb]
          rintro ⟨hA, hB⟩
          apply hB
          have hge := ceil_ge env.cfg size
          have hlt := ceil_lt env.cfg size
          have hps := pageSize_pos env.cfg
          by_cases hz : bytesToLengthCeil env.cfg size = 0
          · rw [hz] at hcap hge
            simp at hge
            rw [show max 0 1 = 1 from rfl, Nat.one_mul] at hcap
            refine ⟨by omega, by omega, ?_⟩
            rw [hk]
            rcases hlarge with h | h
            · omega
            · exact h
          · rw [show max (bytesToLengthCeil env.cfg size) 1 = bytesToLengthCeil env.cfg size by omega] at hcap
            omega
        · exact hsmp false cap hs (by simp [mkSample]; omega) (fun _ => hst)
      rw [this]
      rcases hs with hs | hs <;> simp [hb, Block.home, Block.guarded, hs, mkSample, hst]
    have hlk : ∀ q' : Pol, q'.kind = p.kind → q'.secPart < env.cfg.secParts → q'.numaPart < env.cfg.numaParts →
        getSizeClass env.cfg env.maps q'.sm size' = some .large := by
      intro q' hk' hs1 hs2
      refine (large_iff env.cfg he.cfg t leftover env.maps hm q'.sm ⟨?_, hs1, hs2⟩ size').2 ?_
      · show ∃ k, q'.kind.align = 2 ^ k
        rw [hk']; exact hp.pow2
      · show _ ∨ env.cfg.pageSize < q'.kind.align
        rw [hk']
        exact hlarge.imp (fun h => by omega) id
    have hff : ∀ cold, (cold = false → ∃ g, partitionFromPointerFast env.cfg b.addr = g ∧ g < env.cfg.normalParts) →
        fastFreeWithSize env { q with cold := cold } size' b = .ok b.home := by
      intro cold hcold
      unfold fastFreeWithSize
      simp only
      have hpp : (if cold || decide (partitionFromPointerFast env.cfg b.addr = 0) then 0 else 1) <
          env.cfg.normalParts := by
        have hnp : 0 < env.cfg.normalParts := by
          unfold Cfg.normalParts
          rcases parts_cases he.cfg with h | h | h <;> simp [h.1, h.2]
        cases cold
        · obtain ⟨g, hg1, hg2⟩ := hcold rfl
          rw [hg1]
          simp
          split <;> omega
        · simpa using hnp
      generalize (if cold || decide (partitionFromPointerFast env.cfg b.addr = 0) then 0 else 1) = part at hpp
      rw [hlk (({ q with cold := cold } : Pol).inPartition env.cfg part) hk]
      · exact hfp
      · show (part - part % env.cfg.numaParts) / env.cfg.numaParts < env.cfg.secParts
        unfold Cfg.normalParts at hpp
        rcases parts_cases he.cfg with h | h | h <;> simp only [h.1, h.2] at hpp ⊢ <;> omega
      · apply Nat.mod_lt
        rcases parts_cases he.cfg with h | h | h <;> omega
    unfold doFreeWithSize
    rcases large_kind ht htag h8 h0 h48 with e | e <;> rw [e]
    · refine hff false (fun _ => ⟨_, rfl, ?_⟩)
      unfold partitionFromPointerFast Cfg.normalParts
      rcases parts_cases he.cfg with h | h | h <;> simp [h.1, h.2] <;> (try split) <;> omega
    · exact hff true (by simp)

end Verif.Frontend
