import Verif.Frontend.ChecksModel
/-!
C86: in builds with assertions, the checks of sized frees raise no false alarm, and find sizes beyond the block.
-/
namespace Verif.Frontend
open Verif.SizeMap Verif.MemoryTag

/-! ### The check looks the size up as the free does -/

theorem correctSize_cold (env : Env) (p : Pol) (c : Bool) (size : Nat) (b : Block) :
    correctSize env { p with cold := c } size b = correctSize env p size b := rfl

/-- For a block that is not sampled, one lookup decides both where the free goes and what the check says. -/
theorem one_lookup (env : Env) (q : Pol) (size : Nat) (b : Block) {tg : Tag} (ht : tg = .cold ∨ tg = .normalP0 ∨ tg = .normalP1)
    (htag : getMemoryTag b.addr = tg.val) (h8 : 8 ∣ b.addr) (h0 : 0 < b.addr) (h48 : b.addr < 2 ^ 48) :
    ∃ r, r = getSizeClass env.cfg env.maps (checkPol env q b).sm size ∧
      sizeCheck env q size b = judge env q.kind size b r ∧
      doFreeWithSize env q size b = (match r with
        | none => .error .ub
        | some (.small c) => .ok (.small c)
        | some .large => freePages env q.kind (some size) b) := by
  have hroute := route_by_tag tg b.addr h48 h8 (by omega) htag
  refine ⟨_, rfl, ?_, ?_⟩
  · unfold sizeCheck
    rcases ht with rfl | rfl | rfl <;> simp only at hroute <;> rw [hroute] <;> rfl
  · unfold doFreeWithSize
    rcases ht with rfl | rfl | rfl <;> simp only at hroute <;> rw [hroute] <;> simp only <;> unfold fastFreeWithSize checkPol
    · have e : partitionFromPointer env.cfg b.addr = 0 := by
        unfold partitionFromPointer; rw [htag]; split <;> rfl
      rw [e, htag]
      rfl
    · have e : partitionFromPointer env.cfg b.addr = 0 := by
        unfold partitionFromPointer; rw [htag]; split <;> rfl
      have e2 : partitionFromPointerFast env.cfg b.addr = 0 := by
        unfold partitionFromPointerFast; rw [htag]; split <;> rfl
      simp only [e, e2, htag]
      rfl
    · have e : partitionFromPointer env.cfg b.addr = partitionFromPointerFast env.cfg b.addr := by
        unfold partitionFromPointer partitionFromPointerFast; rw [htag]; split <;> rfl
      have e2 : (if false || decide (partitionFromPointerFast env.cfg b.addr = 0) then 0 else 1) =
          partitionFromPointerFast env.cfg b.addr := by
        unfold partitionFromPointerFast; rw [htag]; split <;> rfl
      simp only [e, htag]
      simp only [e2]
      rfl

theorem tag_normal_or_cold {env : Env} {c : Nat} {t : Tag} (h : tagFromSizeClass env.cfg env.activeParts c = some t) :
    t = .cold ∨ t = .normalP0 ∨ t = .normalP1 := by
  unfold tagFromSizeClass at h
  split at h
  · simp at h; simp [← h]
  · split at h
    · simp at h; simp [← h]
    · unfold multiNormalTag at h
      split at h <;> simp at h <;> simp [← h]

theorem class_range {env : Env} {c cap : Nat} (hc : c ≠ 0) (hsz : env.maps.classToSize[c]? = some cap) :
    ∃ lo, classToSizeRange env.maps c = some (lo, cap) ∧ lo ≤ cap := by
  obtain ⟨hlt, -⟩ := List.getElem?_eq_some_iff.1 hsz
  have h2 : env.maps.classToSize[c - 1]? = some (env.maps.classToSize[c - 1]'(by omega)) :=
    List.getElem?_eq_getElem (by omega)
  unfold classToSizeRange
  rw [if_neg hc, hsz, h2]
  refine ⟨_, rfl, ?_⟩
  split <;> omega

theorem cached_class {env : Env} {t : List Info} (he : env.OK t) {p : Pol} (hp : p.Valid env) {size c : Nat}
    (hc : getSizeClass env.cfg env.maps p.sm size = some (.small c)) : c ≠ 0 := by
  obtain ⟨leftover, hm⟩ := he.maps
  have hnl : ¬ (env.cfg.maxSize < size ∨ env.cfg.pageSize < p.sm.align) := by
    intro hn; rw [(large_iff env.cfg he.cfg t leftover env.maps hm p.sm hp.sm size).2 hn] at hc; simp at hc
  obtain ⟨c', e, k1, -, -, -, -, k2, k3, -⟩ :=
    class_is_tightest env.cfg he.cfg t leftover env.maps hm p.sm hp.sm size (by omega) (by omega)
  rw [k1] at hc; simp at hc; omega

theorem allowed_pages {env : Env} {k : Kind} {p : Pol} {size cap : Nat} {b : Block} (hb : b.cls = 0)
    (hs : b.sample = none ∨ b.sample = some (mkSample p size cap false)) :
    allowedSizes env k b = some (pageRange env k b) := by
  unfold allowedSizes
  rw [if_neg (by simp [hb])]
  rcases hs with hs | hs <;> rw [hs] <;> rfl

/-! ### No false alarm -/

theorem sizeCheck_fine {env : Env} {t : List Info} (he : env.OK t) {p q : Pol} (hp : p.Valid env) {size cap : Nat} {b : Block}
    (ho : Origin env p size b cap) (h0 : 0 < b.addr) (h48 : b.addr < 2 ^ 48) (hk : q.kind = p.kind) (hle : size ≤ cap) :
    sizeCheck env q size b = .fine := by
  have hhome := doFreeWithSize_home he hp ho h0 h48 hk (Nat.le_refl _) hle (Or.inr (Or.inr rfl))
  cases ho with
  | cached c tg hc hb hs hsz ht htag h8 hpos =>
    subst hb
    have hc0 := cached_class he hp hc
    obtain ⟨r, -, hj, hd⟩ := one_lookup env q size b (tag_normal_or_cold ht) htag h8 h0 h48
    rw [hhome] at hd
    obtain ⟨lo, hr, hlo⟩ := class_range hc0 hsz
    rw [hj]
    unfold judge allowedSizes
    rw [if_pos hc0, hr]
    simp only
    rw [if_neg (by omega)]
    have hh : b.home = .small b.cls := by unfold Block.home; rw [if_pos hc0]
    rw [hh] at hd
    match r, hd with
    | some (.small c), hd =>
      simp only [Except.ok.injEq, Dest.small.injEq] at hd
      simp only [← hd, if_true]
      rw [if_pos (by omega)]
    | some .large, hd =>
      exfalso
      simp only at hd
      unfold freePages at hd
      split at hd
      · cases hd
      · rw [if_pos hc0] at hd; cases hd
    | none, hd => cases hd
  | own hb c hc hsz hs hst htag =>
    unfold sizeCheck
    rw [sampled_irregular htag h0 h48]
    simp only [sampled_mem htag, if_true]
  | guarded hb c bytes hsz hcap hc hs htag =>
    unfold sizeCheck
    rw [sampled_irregular htag h0 h48]
    simp only [sampled_mem htag, if_true]
  | pages tg hb hst hc hcap hsb hs ht htag hpg =>
    have h8 : 8 ∣ b.addr := Nat.dvd_trans (pageSize_dvd8 he.cfg) hpg
    obtain ⟨r, -, hj, hd⟩ := one_lookup env q size b (largeTag_cases ht) htag h8 h0 h48
    rw [hhome] at hd
    have hps := pageSize_pos env.cfg
    have hge := ceil_ge env.cfg size
    have hlt := ceil_lt env.cfg size
    obtain ⟨leftover, hm⟩ := he.maps
    have hlarge := (large_iff env.cfg he.cfg t leftover env.maps hm p.sm hp.sm size).1 hc
    have hrange : (pageRange env q.kind b).1 ≤ size ∧ size ≤ (pageRange env q.kind b).2 := by
      unfold pageRange
      simp only [hsb]
      by_cases hz : bytesToLengthCeil env.cfg size = 0
      · rw [hz] at hcap hge
        rw [show max 0 1 = 1 from rfl, Nat.one_mul] at hcap
        have hs0 : size = 0 := by omega
        rw [if_pos ⟨by
          rw [hk]
          rcases hlarge with h | h
          · omega
          · exact h, hcap⟩]
        omega
      · rw [show max (bytesToLengthCeil env.cfg size) 1 = bytesToLengthCeil env.cfg size by omega] at hcap
        have h1 := Nat.mul_le_mul_right env.cfg.pageSize (show 1 ≤ bytesToLengthCeil env.cfg size by omega)
        split <;> omega
    rw [hj]
    unfold judge
    rw [allowed_pages hb hs]
    simp only
    rw [if_neg (by omega)]
    match r, hd with
    | some (.small c), hd =>
      exfalso
      simp only [Except.ok.injEq] at hd
      unfold Block.home at hd
      rw [if_neg (by simp [hb])] at hd
      split at hd <;> cases hd
    | some .large, hd => simp only; rw [if_pos hb, if_pos hrange]
    | none, hd => cases hd

/-! ### Alignment -/

theorem lowBit_pow (n : Nat) (h : 0 < n) : ∃ k, lowBit n = 2 ^ k ∧ 2 ^ k ∣ n := by
  induction n using Nat.strongRecOn with
  | ind n ih =>
    unfold lowBit
    rw [if_neg (by omega)]
    split
    · exact ⟨0, rfl, Nat.one_dvd _⟩
    · obtain ⟨k, e, hd⟩ := ih (n / 2) (by omega) (by omega)
      refine ⟨k + 1, by rw [e, Nat.pow_succ]; omega, ?_⟩
      rw [Nat.pow_succ, Nat.mul_comm]
      have : n = 2 * (n / 2) := by omega
      rw [this]
      exact Nat.mul_dvd_mul_left 2 hd

theorem dvd_max {a x y : Nat} (hx : x ∣ a) (hy : y ∣ a) : max x y ∣ a := by
  rcases Nat.le_total x y with h | h
  · rw [Nat.max_eq_right h]; exact hy
  · rw [Nat.max_eq_left h]; exact hx

/-- Live blocks are aligned as asked for, and those with pages of their own to a page. -/
def AOK (env : Env) (b : Block) (r : Pol × Nat) : Prop :=
  r.1.kind.align ∣ b.addr ∧ (b.cls = 0 → b.guarded = false → env.cfg.pageSize ∣ b.addr)

theorem aok_fresh {env : Env} {t : List Info} (he : env.OK t) {p : Pol} (hp : p.Valid env) {h : Heap} {size : Nat} {ans : Ans}
    (ha : ans.OK env p h size) {h' : Heap} {b : Block} {cap : Nat} (hr : fastAlloc env p h size ans = .ok (h', some (b, cap))) :
    AOK env b (p, size) := by
  obtain ⟨-, -, hal, -⟩ := fastAlloc_spec he hp ha hr
  refine ⟨hal, fun hc hg => ?_⟩
  unfold fastAlloc at hr
  split at hr
  · cases hr
  · rename_i hcl
    split at hr
    · cases hr
    · have hL := ha.large hcl
      split at hr
      · exact absurd hr (by unfold handleOom; cases p.oom <;> simp)
      · rename_i e
        rw [e] at hL
        simp only [Except.ok.injEq, Prod.mk.injEq, Option.some.injEq] at hr
        rw [← hr.2.1]
        exact hL.1
  · rename_i c hcl
    split at hr
    · cases hr
    · rename_i bytes hsz
      have hS := ha.small c bytes hcl hsz
      split at hr
      · exact absurd hr (by unfold handleOom; cases p.oom <;> simp)
      · rename_i e
        simp only [Except.ok.injEq, Prod.mk.injEq, Option.some.injEq] at hr
        rw [← hr.2.1] at hc
        exact absurd hc (cached_class he hp hcl)
      · rename_i e
        rw [e] at hS
        simp only [Except.ok.injEq, Prod.mk.injEq, Option.some.injEq] at hr
        rw [← hr.2.1]
        exact hS.1
      · rename_i e
        simp only [Except.ok.injEq, Prod.mk.injEq, Option.some.injEq] at hr
        rw [← hr.2.1] at hg
        simp [Block.guarded, mkSample] at hg

theorem origin_aligned {env : Env} {t : List Info} (he : env.OK t) {p : Pol} (hp : p.Valid env) {size cap : Nat} {b : Block}
    (ho : Origin env p size b cap) (hs : b.sample = none) (hal : p.kind.align ≤ env.cfg.pageSize) : p.kind.align ∣ b.addr := by
  obtain ⟨leftover, hm⟩ := he.maps
  obtain ⟨k, hk⟩ := hp.pow2
  cases ho with
  | cached c tg hc hb _ hsz ht htag h8 hpos =>
    obtain ⟨ss, i, ⟨pg, rfl⟩, e⟩ := hpos
    have := (class_blocks_aligned env.cfg he.cfg t leftover env.maps hm p.sm hp.sm size c hc cap hsz pg i).1
    rw [e, Nat.mul_comm env.cfg.pageSize pg]
    exact this
  | own hb c hc hsz hs' => rw [hs] at hs'; cases hs'
  | guarded hb c bytes hsz hcap hc hs' => rw [hs] at hs'; cases hs'
  | pages tg hb hst hc hcap hsb hs' ht htag hpg =>
    refine Nat.dvd_trans ?_ hpg
    rw [hk] at hal ⊢
    unfold Cfg.pageSize at hal ⊢
    exact Nat.pow_dvd_pow 2 ((Nat.pow_le_pow_iff_right (by omega)).1 hal)

theorem aok_reach {env : Env} {t : List Info} (he : env.OK t) {s : GState} (h : Reach env (PageAligned env) s) :
    ∀ b ∈ s.heap.live, AOK env b (s.req b) := by
  induction h with
  | init s h => rw [h]; simp
  | @step s s' e hreach hs ih =>
    have hi := hreach.uinv he
    have hrok := rok_reach he (hreach.step hs)
    cases hs with
    | alloc p size ans h' b cap hp hsz ha hr =>
      intro b' hb'
      obtain ⟨-, -, -, -, -, -, -, h8⟩ := fastAlloc_spec he hp ha hr
      simp only [setReq]
      by_cases hbb : b' = b
      · rw [if_pos hbb, hbb]; exact aok_fresh he hp ha hr
      · rw [if_neg hbb]
        subst h8
        simp [hbb] at hb'
        exact ih b' hb'
    | allocFail p size ans h' hp ha hr =>
      rcases fastAlloc_none hr with ⟨-, e⟩ | ⟨-, e⟩ <;> subst e <;> exact ih
    | calloc numa n m ans h' r hn1 hn2 ha hr =>
      have hc := calloc_cases hr
      cases r with
      | none => intro b hb; exact ih b (by rw [← hc.1]; exact hb)
      | some b =>
        obtain ⟨hlt, h1, cap, hf, rfl⟩ := hc
        have hpv := mallocPol_valid he hn1 hn2 .malloc ⟨4, rfl⟩
        have hf' : fastAlloc env { mallocPol env.cfg numa with kind := .malloc } s.heap (n * m) ans = _ := hf
        intro b' hb'
        obtain ⟨-, -, -, -, -, -, -, h8⟩ := fastAlloc_spec he hpv ha hf'
        simp only [setReqOpt, setReq]
        by_cases hbb : b' = b
        · rw [if_pos hbb, hbb]; exact aok_fresh he hpv ha hf'
        · rw [if_neg hbb]
          subst h8
          simp [hbb] at hb'
          exact ih b' hb'
    | realloc numa b size w ans h' r hb hn1 hn2 hfam hR hsz ha hr =>
      have hfam' : ∀ s, b.sample = some s → s.type ≠ .new := by
        intro sm hsm; rw [(hi.live b hb).2 sm hsm]; exact hfam
      by_cases hz : size = 0
      · subst hz
        rw [realloc_zero he numa hi.inv hb hfam'] at hr
        simp at hr
        obtain ⟨rfl, rfl⟩ := hr
        exact fun b' hb' => ih b' (List.mem_of_mem_erase hb')
      · obtain ⟨old, h1, r1, k1, k2, k3⟩ := realloc_correct he hn1 hn2 hi.inv hb hfam' size hz hsz w ans ha
        rw [k2] at hr
        simp at hr
        obtain ⟨rfl, rfl⟩ := hr
        cases r1 with
        | none => intro b hb; exact ih b (by rw [← k3.1]; exact hb)
        | some nb =>
          obtain ⟨l1, -⟩ := k3
          intro b' hb'
          by_cases hbb : b' = nb
          · subst hbb
            rcases realloc_cases hz k2 with ⟨rfl, hsn, -⟩ | ⟨h2, c2, hf⟩
            · obtain ⟨p, cap, hp, hk, ho, -⟩ := hrok b' hb'
              have hkm : p.kind = .malloc := by rw [hk]; simp [setReqOpt, setReq, reallocPol, mallocPol, Pol.inPartition]
              have h16 : p.kind.align = 16 := by rw [hkm]; rfl
              have hps : 16 ≤ env.cfg.pageSize := by
                have := he.cfg.base
                simp only [baseConfigs, List.mem_cons, Prod.mk.injEq, List.not_mem_nil, or_false] at this
                unfold Cfg.pageSize
                exact Nat.le_trans (show 16 ≤ 2 ^ 12 by decide) (Nat.pow_le_pow_right (by omega) (by omega))
              refine ⟨?_, (ih b' hb).2⟩
              rw [← hk]
              exact origin_aligned he hp ho hsn (by omega)
            · simp only [setReqOpt, setReq, if_true]
              exact aok_fresh he (reallocPol_valid he hn1 hn2 b) ha hf
          · simp only [setReqOpt, setReq]
            rw [if_neg hbb]
            rcases (l1 b').1 hb' with h | ⟨h, -⟩
            · exact absurd h hbb
            · exact ih b' h
    | free k b h' d hb hk hr =>
      unfold free at hr
      split at hr
      · cases hr
      · simp at hr
        obtain ⟨rfl, -⟩ := hr
        exact fun b' hb' => ih b' (List.mem_of_mem_erase hb')
    | freeSized q b h' d hb hk hr =>
      unfold freeSized at hr
      split at hr
      · cases hr
      · simp at hr
        obtain ⟨rfl, -⟩ := hr
        exact fun b' hb' => ih b' (List.mem_of_mem_erase hb')
    | write b a v hb ha => exact ih

theorem alignCheck_fine {env : Env} {t : List Info} (he : env.OK t) {p : Pol} (hp : p.Valid env) {size cap : Nat} {b : Block}
    (ho : Origin env p size b cap) {r : Pol × Nat} (ha : AOK env b r) : alignCheck env r.1.kind.align b = .fine := by
  unfold alignCheck
  by_cases hc : b.cls = 0
  · rw [if_neg (by simp [hc])]
    split
    · simp [Nat.mod_eq_zero_of_dvd ha.1]
    · rename_i hg
      simp only
      rw [if_pos (Nat.mod_eq_zero_of_dvd (dvd_max ha.1 (ha.2 hc (by simpa using hg))))]
  · rw [if_pos hc]
    cases ho with
    | cached c tg hcl hb hs hsz ht htag h8 hpos =>
      subst hb
      obtain ⟨leftover, hm⟩ := he.maps
      obtain ⟨ss, i, hss, e⟩ := hpos
      obtain ⟨bytes, g1, -, -, g2⟩ := class_at_least_requested env.cfg he.cfg t leftover env.maps hm p.sm hp.sm size b.cls hcl
      rw [hsz] at g1
      simp only [Option.some.injEq] at g1
      subst g1
      obtain ⟨k, hk, hd⟩ := lowBit_pow cap g2
      rw [hsz]
      simp only [Option.map_some]
      rw [if_pos]
      apply Nat.mod_eq_zero_of_dvd
      refine dvd_max ha.1 ?_
      rw [e, hk]
      have h1 : min (2 ^ k) env.cfg.pageSize ∣ env.cfg.pageSize := by
        unfold Cfg.pageSize
        rcases Nat.le_total k env.cfg.pageShift with h | h
        · rw [Nat.min_eq_left (Nat.pow_le_pow_right (by omega) h)]; exact Nat.pow_dvd_pow 2 h
        · rw [Nat.min_eq_right (Nat.pow_le_pow_right (by omega) h)]; exact Nat.dvd_refl _
      have h2 : min (2 ^ k) env.cfg.pageSize ∣ 2 ^ k := by
        unfold Cfg.pageSize
        rcases Nat.le_total k env.cfg.pageShift with h | h
        · rw [Nat.min_eq_left (Nat.pow_le_pow_right (by omega) h)]; exact Nat.dvd_refl _
        · rw [Nat.min_eq_right (Nat.pow_le_pow_right (by omega) h)]; exact Nat.pow_dvd_pow 2 h
      exact Nat.dvd_add (Nat.dvd_trans h1 hss) (Nat.dvd_trans (Nat.dvd_trans h2 hd) (Nat.dvd_mul_left _ _))
    | own hb => exact absurd hb hc
    | guarded hb => exact absurd hb hc
    | pages _ hb => exact absurd hb hc

/-! ### The theorems -/

/-- **C86 (partial), no false alarm.**  After any history in which no block aligned beyond a page was `realloc`ed: a sized
free of a live block, with the size last requested for it and through its family, passes both checks.  Missing: histories
that `realloc` blocks aligned beyond a page, for which it is false (`realloc_false_alarm`). -/
theorem matching_free_passes_partial {env : Env} {t : List Info} (he : env.OK t) {s : GState} (h : Reach env (PageAligned env) s)
    {b : Block} (hb : b ∈ s.heap.live) {q : Pol} (hq : q.kind = (s.req b).1.kind) :
    sizeCheck env q (s.req b).2 b = .fine ∧ alignCheck env q.kind.align b = .fine := by
  obtain ⟨p, cap, hp, hk, ho, hg, h0, h48, hle⟩ := rok_reach he h b hb
  refine ⟨sizeCheck_fine he hp ho h0 h48 (by rw [hq, hk]) hle, ?_⟩
  rw [hq]
  exact alignCheck_fine he hp ho (aok_reach he h b hb)

/-- **C86, wrong sizes are found.**  After any history: a sized free of a live block outside sampled memory, with more bytes
than the block has, is reported, whatever family it is freed through; the upper end of the range reported is the size of the
block. -/
theorem oversize_reported {env : Env} {t : List Info} (he : env.OK t) {R : Pol → Prop} {s : GState} (h : Reach env R s)
    {b : Block} (hb : b ∈ s.heap.live) (hns : isSampledMemory b.addr = false) {q : Pol} (hq : ∃ k, q.kind.align = 2 ^ k)
    {usable size : Nat} (hu : getSize env b = some usable) (hbig : usable < size) :
    ∃ lo, lo ≤ usable ∧ sizeCheck env q size b = .mismatched lo usable := by
  obtain ⟨⟨p, sz, cap, hp, ho, hg, h0, h48, hle, -⟩, -⟩ := (h.uinv he).live b hb
  rw [hg] at hu
  simp only [Option.some.injEq] at hu
  subst hu
  obtain ⟨leftover, hm⟩ := he.maps
  have hv : (checkPol env q b).sm.Valid env.cfg := ⟨hq, (partFromPtr_lt he b.addr).1, (partFromPtr_lt he b.addr).2⟩
  have hfit : ∀ c, getSizeClass env.cfg env.maps (checkPol env q b).sm size = some (.small c) →
      c ≠ 0 ∧ ∃ bytes, env.maps.classToSize[c]? = some bytes ∧ size ≤ bytes := by
    intro c hc
    obtain ⟨bytes, g1, g2, -⟩ := class_at_least_requested env.cfg he.cfg t leftover env.maps hm _ hv size c hc
    refine ⟨?_, bytes, g1, g2⟩
    have hnl : ¬ (env.cfg.maxSize < size ∨ env.cfg.pageSize < (checkPol env q b).sm.align) := by
      intro hn; rw [(large_iff env.cfg he.cfg t leftover env.maps hm _ hv size).2 hn] at hc; simp at hc
    obtain ⟨c', e, k1, -, -, -, -, k2, k3, -⟩ :=
      class_is_tightest env.cfg he.cfg t leftover env.maps hm _ hv size (by omega) (by omega)
    rw [k1] at hc; simp at hc; omega
  have hdef : getSizeClass env.cfg env.maps (checkPol env q b).sm size ≠ none := by
    by_cases hl : env.cfg.maxSize < size ∨ env.cfg.pageSize < (checkPol env q b).sm.align
    · rw [(large_iff env.cfg he.cfg t leftover env.maps hm _ hv size).2 hl]; simp
    · obtain ⟨c', e, k1, -⟩ := class_is_tightest env.cfg he.cfg t leftover env.maps hm _ hv size (by omega) (by omega)
      rw [k1]; simp
  cases ho with
  | cached c tg hc hb' hs hsz ht htag h8 hpos =>
    subst hb'
    have hc0 := cached_class he hp hc
    obtain ⟨r, hr, hj, -⟩ := one_lookup env q size b (tag_normal_or_cold ht) htag h8 h0 h48
    obtain ⟨lo, hlr, hlo⟩ := class_range hc0 hsz
    refine ⟨lo, hlo, ?_⟩
    rw [hj]
    unfold judge allowedSizes
    rw [if_pos hc0, hlr]
    simp only
    rw [if_neg (by omega)]
    match r, hr with
    | some (.small c), hr =>
      simp only
      rw [if_neg]
      rintro rfl
      obtain ⟨-, bytes, g1, g2⟩ := hfit _ hr.symm
      rw [hsz] at g1
      simp only [Option.some.injEq] at g1
      omega
    | some .large, hr => simp only; rw [if_neg hc0]
    | none, hr => exact absurd hr.symm hdef
  | own hb' c hc hsz hs hst htag => rw [sampled_mem htag] at hns; cases hns
  | guarded hb' c bytes hsz hcap hc hs htag => rw [sampled_mem htag] at hns; cases hns
  | pages tg hb' hst hc hcap hsb hs ht htag hpg =>
    have h8 : 8 ∣ b.addr := Nat.dvd_trans (pageSize_dvd8 he.cfg) hpg
    obtain ⟨r, hr, hj, -⟩ := one_lookup env q size b (largeTag_cases ht) htag h8 h0 h48
    have hps := pageSize_pos env.cfg
    have h1 : env.cfg.pageSize ≤ cap := by
      rw [hcap]; exact Nat.le_mul_of_pos_left _ (by omega)
    have h2 : (pageRange env q.kind b).1 ≤ cap := by
      unfold pageRange; simp only [hsb]; split <;> omega
    have h3 : (pageRange env q.kind b).2 = cap := hsb
    refine ⟨(pageRange env q.kind b).1, h2, ?_⟩
    rw [hj]
    unfold judge
    rw [allowed_pages hb' hs]
    simp only
    rw [if_neg (by omega), h3]
    match r, hr with
    | some (.small c), hr =>
      simp only
      rw [if_neg]
      rintro rfl
      exact (hfit _ hr.symm).1 hb'
    | some .large, hr => simp only; rw [if_pos hb', if_neg (by omega)]
    | none, hr => exact absurd hr.symm hdef

/-- **C86, the check is exact.**  After any history, for a live block outside sampled memory and any family and size: the check
passes exactly when an allocation of that size, of this family and in the block's partition, would be served by the class of the
block or, for a block without a class, by the page heap with as many pages. -/
theorem size_check_exact {env : Env} {t : List Info} (he : env.OK t) {R : Pol → Prop} {s : GState} (h : Reach env R s)
    {b : Block} (hb : b ∈ s.heap.live) (hns : isSampledMemory b.addr = false) {q : Pol} (hq : ∃ k, q.kind.align = 2 ^ k) (size : Nat) :
    sizeCheck env q size b = .fine ↔
      (b.cls ≠ 0 ∧ getSizeClass env.cfg env.maps (checkPol env q b).sm size = some (.small b.cls)) ∨
      (b.cls = 0 ∧ getSizeClass env.cfg env.maps (checkPol env q b).sm size = some .large ∧
        max (bytesToLengthCeil env.cfg size) 1 * env.cfg.pageSize = b.spanBytes) := by
  obtain ⟨⟨p, sz, cap, hp, ho, hg, h0, h48, hle, -⟩, -⟩ := (h.uinv he).live b hb
  obtain ⟨leftover, hm⟩ := he.maps
  have hv : (checkPol env q b).sm.Valid env.cfg := ⟨hq, (partFromPtr_lt he b.addr).1, (partFromPtr_lt he b.addr).2⟩
  cases ho with
  | cached c tg hc hb' hs hsz ht htag h8 hpos =>
    subst hb'
    have hc0 := cached_class he hp hc
    obtain ⟨r, hr, hj, -⟩ := one_lookup env q size b (tag_normal_or_cold ht) htag h8 h0 h48
    obtain ⟨lo, hlr, hlo⟩ := class_range hc0 hsz
    rw [hj, ← hr]
    unfold judge allowedSizes
    rw [if_pos hc0, hlr]
    simp only
    rw [if_neg (by omega)]
    rcases r with _ | _ | c
    · simp
    · simp [hc0]
    · simp only [Option.some.injEq, Res.small.injEq]
      by_cases e : c = b.cls
      · rw [if_pos e, if_pos (by omega)]; simp [e, hc0]
      · rw [if_neg e]; simp [e]
  | own hb' c hc hsz hs hst htag => rw [sampled_mem htag] at hns; cases hns
  | guarded hb' c bytes hsz hcap hc hs htag => rw [sampled_mem htag] at hns; cases hns
  | pages tg hb' hst hc hcap hsb hs ht htag hpg =>
    have h8 : 8 ∣ b.addr := Nat.dvd_trans (pageSize_dvd8 he.cfg) hpg
    obtain ⟨r, hr, hj, -⟩ := one_lookup env q size b (largeTag_cases ht) htag h8 h0 h48
    have hps := pageSize_pos env.cfg
    have h1 : env.cfg.pageSize ≤ cap := by
      rw [hcap]; exact Nat.le_mul_of_pos_left _ (by omega)
    have h2 : (pageRange env q.kind b).1 ≤ cap := by
      unfold pageRange; simp only [hsb]; split <;> omega
    have h3 : (pageRange env q.kind b).2 = cap := hsb
    rw [hj]
    unfold judge
    rw [allowed_pages hb' hs]
    simp only
    rw [if_neg (by omega), ← hr]
    rcases r with _ | _ | c
    · simp
    · simp only [if_pos hb', true_and]
      have hlarge := (large_iff env.cfg he.cfg t leftover env.maps hm _ hv size).1 hr.symm
      have hmx : env.cfg.pageSize ≤ env.cfg.maxSize := by
        have := he.cfg.base
        simp only [baseConfigs, List.mem_cons, Prod.mk.injEq, List.not_mem_nil, or_false] at this
        unfold Cfg.pageSize
        rcases this with ⟨e, -, -, e2⟩ | ⟨e, -, -, e2⟩ | ⟨e, -, -, e2⟩ | ⟨e, -, -, e2⟩ <;> rw [e, e2] <;> decide
      have hge := ceil_ge env.cfg size
      have hlt := ceil_lt env.cfg size
      have hz : size = 0 → bytesToLengthCeil env.cfg size = 0 := by
        rintro rfl
        rcases Nat.eq_zero_or_pos (bytesToLengthCeil env.cfg 0) with e | e
        · exact e
        · have := Nat.mul_le_mul_right env.cfg.pageSize (show 1 ≤ bytesToLengthCeil env.cfg 0 by omega)
          omega
      have key : ((pageRange env q.kind b).1 ≤ size ∧ size ≤ (pageRange env q.kind b).2) ↔
          max (bytesToLengthCeil env.cfg size) 1 * env.cfg.pageSize = b.spanBytes := by
        rw [h3, hsb, hcap]
        generalize hn : max (bytesToLengthCeil env.cfg sz) 1 = n at hcap
        have hn1 : 1 ≤ n := by omega
        by_cases h00 : size = 0
        · rw [hz h00, h00]
          unfold pageRange
          simp only [hsb]
          have hal : q.kind.align > env.cfg.pageSize := by
            rcases hlarge with h | h
            · omega
            · exact h
          rw [show max 0 1 = 1 from rfl, Nat.one_mul]
          by_cases e : cap = env.cfg.pageSize
          · rw [if_pos ⟨hal, e⟩]; omega
          · rw [if_neg (fun h => e h.2)]; omega
        · have hc1 : 1 ≤ bytesToLengthCeil env.cfg size := by
            rcases Nat.eq_zero_or_pos (bytesToLengthCeil env.cfg size) with e | e
            · rw [e] at hge; omega
            · exact e
          rw [show max (bytesToLengthCeil env.cfg size) 1 = bytesToLengthCeil env.cfg size by omega]
          have hlo : (pageRange env q.kind b).1 ≤ size ↔ n * env.cfg.pageSize < size + env.cfg.pageSize := by
            unfold pageRange
            simp only [hsb]
            by_cases e : q.kind.align > env.cfg.pageSize ∧ cap = env.cfg.pageSize
            · rw [if_pos e]; omega
            · rw [if_neg e]; omega
          rw [hlo]
          constructor
          · rintro ⟨g1, g2⟩
            have a1 : n * env.cfg.pageSize < (bytesToLengthCeil env.cfg size + 1) * env.cfg.pageSize := by
              rw [Nat.add_mul, Nat.one_mul]; omega
            have a2 : bytesToLengthCeil env.cfg size * env.cfg.pageSize < (n + 1) * env.cfg.pageSize := by
              rw [Nat.add_mul, Nat.one_mul]; omega
            have b1 := Nat.lt_of_mul_lt_mul_right a1
            have b2 := Nat.lt_of_mul_lt_mul_right a2
            rw [show bytesToLengthCeil env.cfg size = n by omega]
          · intro e
            omega
      by_cases e : max (bytesToLengthCeil env.cfg size) 1 * env.cfg.pageSize = b.spanBytes
      · rw [if_pos (key.2 e)]; simp [hb', e]
      · rw [if_neg (fun hh => e (key.1 hh))]; simp [e]
    · simp only [Option.some.injEq]
      split
      · rename_i e
        rw [if_neg (by omega)]; simp [hb']
      · simp [hb']

/-- **C86, false of the code.**  `memalign(16384, 8192)` followed by `realloc` to 8000 bytes, which keeps the block in place: the
check with which `realloc` ends (tcmalloc.cc:1631) fails, and so does that of the sized free with the 8000 bytes last requested.
A correct program stops here in a build with assertions. -/
theorem realloc_false_alarm :
    ∃ (env : Env) (t : List Info) (_ : env.OK t) (s1 s2 : GState) (b : Block),
      Reach env (fun _ => True) s1 ∧ s1.req b = ({ mallocPol env.cfg 0 with kind := .memalign 16384 }, 8192) ∧
      b ∈ s1.heap.live ∧ Step env (fun _ => True) s1 none s2 ∧ b ∈ s2.heap.live ∧ s2.req b = (reallocPol env 0 b, 8000) ∧
      correctSize env (mallocPol env.cfg 0) 8000 b ≠ .fine ∧ sizeCheck env (mallocPol env.cfg 0) 8000 b ≠ .fine := by
  obtain ⟨env, t, he, s1, s2, b, c, hr, hq, hb, hs, hb2, hq2, hf, hh⟩ := realloc_then_sized_free_misroutes
  have hcls : b.cls = 0 := by
    unfold Block.home at hh
    split at hh
    · cases hh
    · omega
  obtain ⟨⟨p, sz, cap, hp, ho, hg, h0, h48, hle, -⟩, -⟩ := (hr.uinv he).live b hb
  have hd : doFreeWithSize env (mallocPol env.cfg 0) 8000 b = .ok (.small c) := by
    unfold freeSized at hf
    split at hf
    · cases hf
    · rename_i d e
      simp only [Except.ok.injEq, Prod.mk.injEq] at hf
      rw [e, hf.2]
  have hfp : ∀ k n, freePages env k n b ≠ .ok (.small c) := by
    intro k n e
    unfold freePages at e
    split at e
    · cases e
    · split at e
      · cases e
      · split at e
        · cases e
        · split at e <;> cases e
  have key : sizeCheck env (mallocPol env.cfg 0) 8000 b ≠ .fine ∧ correctSize env (mallocPol env.cfg 0) 8000 b ≠ .fine := by
    have fin : ∀ (tg : Tag), (tg = .cold ∨ tg = .normalP0 ∨ tg = .normalP1) → getMemoryTag b.addr = tg.val → 8 ∣ b.addr →
        sizeCheck env (mallocPol env.cfg 0) 8000 b ≠ .fine ∧ correctSize env (mallocPol env.cfg 0) 8000 b ≠ .fine := by
      intro tg h1 h2 h3
      obtain ⟨r, hr', hj, hd'⟩ := one_lookup env (mallocPol env.cfg 0) 8000 b h1 h2 h3 h0 h48
      have hcs : correctSize env (mallocPol env.cfg 0) 8000 b = judge env (mallocPol env.cfg 0).kind 8000 b r := by
        unfold correctSize; rw [← hr']
      rw [hj, hcs]
      suffices hne : judge env (mallocPol env.cfg 0).kind 8000 b r ≠ .fine from ⟨hne, hne⟩
      rw [hd] at hd'
      unfold judge
      split
      · simp
      · split
        · simp
        · match r, hd' with
          | some (.small c'), _ =>
            simp only
            split
            · rw [if_neg (by omega)]; simp
            · simp
          | some .large, hd' => exact absurd hd'.symm (hfp _ _)
          | none, hd' => cases hd'
    cases ho with
    | cached c tg hc hb' hs hsz ht htag h8 hpos => exact fin tg (tag_normal_or_cold ht) htag h8
    | own hb' c' hc hsz hs' hst htag =>
      exfalso
      unfold doFreeWithSize at hd
      rw [sampled_irregular htag h0 h48] at hd
      simp only [sampled_mem htag, if_true] at hd
      exact hfp _ _ hd
    | guarded hb' c' bytes hsz hcap hc hs' htag =>
      exfalso
      unfold doFreeWithSize at hd
      rw [sampled_irregular htag h0 h48] at hd
      simp only [sampled_mem htag, if_true] at hd
      exact hfp _ _ hd
    | pages tg hb' hst hc hcap hsb hs' ht htag hpg =>
      exact fin tg (largeTag_cases ht) htag (Nat.dvd_trans (pageSize_dvd8 he.cfg) hpg)
  exact ⟨env, t, he, s1, s2, b, hr, hq, hb, hs, hb2, hq2, key.2, key.1⟩

/-! ### The hypotheses are met -/

/-- A small block is live after `malloc(100)`; its matching free passes. -/
example : ∃ (env : Env) (_ : env.OK reuse_a16_p13) (s : GState) (b : Block), Reach env (PageAligned env) s ∧ b ∈ s.heap.live ∧
    b.cls ≠ 0 ∧ (s.req b).2 = 100 ∧ sizeCheck env (s.req b).1 100 b = .fine := by
  obtain ⟨env, he, s, b, hr, hb, hc, hq, -⟩ := small_block_reachable
  exact ⟨env, he, s, b, hr, hb, hc, hq, hq ▸ (matching_free_passes_partial he hr hb rfl).1⟩

/-- The free of the same block with more bytes than it has is reported. -/
example : ∃ (env : Env) (_ : env.OK reuse_a16_p13) (s : GState) (b : Block) (usable lo : Nat), Reach env (PageAligned env) s ∧
    b ∈ s.heap.live ∧ 100 ≤ usable ∧ sizeCheck env (mallocPol env.cfg 0) (usable + 1) b = .mismatched lo usable := by
  obtain ⟨env, he, s, b, hr, hb, hc, hq, -⟩ := small_block_reachable
  obtain ⟨p, cap, hp, hk, ho, hg, h0, h48, hle⟩ := rok_reach he hr b hb
  have hns : isSampledMemory b.addr = false := by
    cases ho with
    | cached c tg _ _ _ _ ht htag =>
      have := sampled_exact tg b.addr htag
      rcases tag_normal_or_cold ht with rfl | rfl | rfl <;> simpa using this
    | own hb' => exact absurd hb' hc
    | guarded hb' => exact absurd hb' hc
    | pages _ hb' => exact absurd hb' hc
  obtain ⟨lo, -, h⟩ := oversize_reported he hr hb hns (q := mallocPol env.cfg 0) ⟨4, rfl⟩ hg (Nat.lt_succ_self _)
  exact ⟨env, he, s, b, cap, lo, hr, hb, by omega, h⟩

/-- The range reported for a class: the sizes above the class before. -/
example : classToSizeRange ⟨[0, 8, 16, 32], [], [], []⟩ 3 = some (17, 32) ∧
    classToSizeRange ⟨[0, 8, 16, 32], [], [], []⟩ 1 = some (1, 8) := by decide

/-- A block of 8192 bytes has the pages' range of sizes. -/
example : ∃ env : Env, env.OK reuse_a16_p13 ∧ pageRange env .malloc ⟨hAddr, 0, hAddr, 16384, none⟩ = (8193, 16384) ∧
    alignCheck env 16 ⟨hAddr + 16, 0, hAddr, 16384, none⟩ = .misaligned 8192 := by
  obtain ⟨env, he, hcfg, -⟩ := hEnv
  refine ⟨env, he, ?_, ?_⟩
  · unfold pageRange; rw [hcfg]; decide
  · unfold alignCheck; rw [hcfg, if_neg (by decide), if_neg (by decide)]; decide

end Verif.Frontend
