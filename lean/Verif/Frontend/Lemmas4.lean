import Verif.Frontend.Lemmas3
namespace Verif.Frontend
open Verif.SizeMap
open Verif.MemoryTag

/-- A live block's metadata describe some earlier request. -/
def BlockOK (env : Env) (b : Block) : Prop :=
  ∃ p size cap, Pol.Valid env p ∧ Origin env p size b cap ∧ getSize env b = some cap ∧
    0 < b.addr ∧ b.addr < 2 ^ 48 ∧ size ≤ cap

/-- Two blocks at different addresses that share no byte. -/
def Apart (env : Env) (b b' : Block) : Prop :=
  b.addr ≠ b'.addr ∧ ∀ a, ¬ (b.Has env a ∧ b'.Has env a)

theorem Apart.symm {env : Env} {b b' : Block} (h : Apart env b b') : Apart env b' b :=
  ⟨Ne.symm h.1, fun a ha => h.2 a ⟨ha.2, ha.1⟩⟩

structure Inv (env : Env) (h : Heap) : Prop where
  blocks : ∀ b ∈ h.live, BlockOK env b
  disj : h.live.Pairwise (Apart env)

theorem Inv.nodup {env : Env} {h : Heap} (hi : Inv env h) : h.live.Nodup := by
  refine hi.disj.imp ?_
  intro a b hab he
  exact hab.1 (by rw [he])

theorem Inv.erase {env : Env} {h : Heap} (hi : Inv env h) (b : Block) (m : Nat → UInt8) (e : Nat) :
    Inv env ⟨m, h.live.erase b, e⟩ :=
  ⟨fun b' hb' => hi.blocks b' (List.mem_of_mem_erase hb'), hi.disj.sublist List.erase_sublist⟩

theorem Inv.cons {env : Env} {t : List Info} (he : env.OK t) {p : Pol} (hp : p.Valid env) {h : Heap}
    (hi : Inv env h) {size : Nat} {ans : Ans} (ha : ans.OK env p h size) {h' : Heap} {b : Block}
    {cap : Nat} (hr : fastAlloc env p h size ans = .ok (h', some (b, cap))) : Inv env h' := by
  obtain ⟨h1, h2, h3, h4, h5, h6, h7, h8⟩ := fastAlloc_spec he hp ha hr
  have hf := ha.fresh h' b cap hr
  subst h8
  refine ⟨?_, List.pairwise_cons.2 ⟨hf, hi.disj⟩⟩
  intro b' hb'
  simp at hb'
  rcases hb' with rfl | hb'
  · exact ⟨p, size, cap, hp, h7, h1, h4, h6, h2⟩
  · exact hi.blocks b' hb'

theorem fastAlloc_none {env : Env} {p : Pol} {h : Heap} {size : Nat} {ans : Ans} {h' : Heap}
    (hr : fastAlloc env p h size ans = .ok (h', none)) :
    (p.oom = .null ∧ h' = { h with mem := ans.mem }) ∨
    (p.oom = .malloc ∧ h' = { h with mem := ans.mem, errno := kENOMEM }) := by
  have key : ∀ h0 : Heap, (handleOom p.oom h0 : Except Stop (Heap × Option (Block × Nat))) = .ok (h', none) →
      (p.oom = .null ∧ h' = h0) ∨ (p.oom = .malloc ∧ h' = { h0 with errno := kENOMEM }) := by
    intro h0 hh
    unfold handleOom at hh
    cases ho : p.oom <;> rw [ho] at hh <;> simp at hh <;> simp [hh]
  unfold fastAlloc at hr
  split at hr
  · cases hr
  · split at hr
    · cases hr
    · split at hr
      · exact key _ hr
      · simp at hr
  · split at hr
    · cases hr
    · split at hr
      · exact key _ hr
      all_goals simp at hr

/-- `fast_alloc` under a C-family OOM policy and an alignment of at most a huge page always returns. -/
theorem fastAlloc_returns {env : Env} {t : List Info} (he : env.OK t) {p : Pol} (hp : p.Valid env)
    (ho : p.oom ≠ .cpp) (hal : p.kind.align ≤ 2 ^ 21) (h : Heap) (size : Nat) (ans : Ans) :
    ∃ h' r, fastAlloc env p h size ans = .ok (h', r) := by
  obtain ⟨leftover, hm⟩ := he.maps
  have key : ∀ h0 : Heap, ∃ h' r, (handleOom p.oom h0 : Except Stop (Heap × Option (Block × Nat))) = .ok (h', r) := by
    intro h0
    unfold handleOom
    cases hoo : p.oom
    · exact ⟨_, _, rfl⟩
    · exact ⟨_, _, rfl⟩
    · exact absurd hoo ho
  unfold fastAlloc
  by_cases hl : env.cfg.maxSize < size ∨ env.cfg.pageSize < p.sm.align
  · rw [(large_iff env.cfg he.cfg t leftover env.maps hm p.sm hp.sm size).2 hl]
    have hnot : ¬ (bytesToLengthCeil env.cfg p.kind.align > pagesPerHuge env.cfg) := by
      obtain ⟨k, hk⟩ := hp.pow2
      have hk21 : k ≤ 21 := by
        rw [hk] at hal
        exact (Nat.pow_le_pow_iff_right (by omega)).1 hal
      have hb := he.cfg.base
      simp only [baseConfigs, List.mem_cons, Prod.mk.injEq, List.not_mem_nil, or_false] at hb
      have hsh : env.cfg.pageShift ≤ 18 := by omega
      rw [hk]
      unfold bytesToLengthCeil pagesPerHuge Cfg.pageSize kHugePageShift
      rw [Nat.shiftRight_eq_div_pow]
      by_cases hks : env.cfg.pageShift ≤ k
      · rw [Nat.mod_eq_zero_of_dvd (Nat.pow_dvd_pow 2 hks), if_pos rfl, Nat.pow_div hks (by omega)]
        have := Nat.pow_le_pow_right (n := 2) (by omega) (show k - env.cfg.pageShift ≤ 21 - env.cfg.pageShift by omega)
        omega
      · rw [Nat.div_eq_of_lt (Nat.pow_lt_pow_right (by omega) (by omega))]
        have := Nat.two_pow_pos (21 - env.cfg.pageShift)
        split <;> omega
    simp only
    rw [if_neg hnot]
    split
    · exact key _
    · exact ⟨_, _, rfl⟩
  · obtain ⟨c, e, h1, -, h3, -⟩ :=
      class_is_tightest env.cfg he.cfg t leftover env.maps hm p.sm hp.sm size (by omega) (by omega)
    rw [h1]
    simp only [h3]
    split
    · exact key _
    all_goals exact ⟨_, _, rfl⟩

theorem mallocPol_valid {env : Env} {t : List Info} (he : env.OK t) {numa : Nat}
    (h1 : numa < env.cfg.numaParts) (h2 : env.activeParts = 1 → numa = 0) (k : Kind) (hk : ∃ n, k.align = 2 ^ n) :
    ({ mallocPol env.cfg numa with kind := k } : Pol).Valid env := by
  refine ⟨hk, ?_, h1, h2, by simp [mallocPol]⟩
  simp only [mallocPol]
  rcases parts_sec he.cfg with h | h <;> simp [h]

theorem partFromPtr_lt {env : Env} {t : List Info} (he : env.OK t) (a : Nat) :
    (partitionFromPointer env.cfg a - partitionFromPointer env.cfg a % env.cfg.numaParts) / env.cfg.numaParts <
      env.cfg.secParts ∧ partitionFromPointer env.cfg a % env.cfg.numaParts < env.cfg.numaParts := by
  unfold partitionFromPointer Cfg.normalParts
  rcases parts_cases he.cfg with h | h | h <;> simp [h.1, h.2] <;> (try split) <;> simp

theorem reallocPol_valid {env : Env} {t : List Info} (he : env.OK t) {numa : Nat}
    (h1 : numa < env.cfg.numaParts) (h2 : env.activeParts = 1 → numa = 0) (b : Block) :
    (reallocPol env numa b).Valid env :=
  ⟨⟨4, rfl⟩, (partFromPtr_lt he b.addr).1, h1, h2, by simp [reallocPol, mallocPol, Pol.inPartition]⟩

theorem getSize_unsampled_pos {env : Env} {t : List Info} (he : env.OK t) {b : Block} {n : Nat}
    (hb : BlockOK env b) (hs : b.sample = none) (hn : getSize env b = some n) : 0 < n := by
  obtain ⟨leftover, hm⟩ := he.maps
  obtain ⟨p, size, cap, hp, ho, hg, h0, h48, hle⟩ := hb
  rw [hn] at hg; simp at hg; subst hg
  cases ho with
  | cached c tg hc hb hs hsz ht htag h8 hpos =>
    obtain ⟨bytes, hb1, hb2, hb3, hb4⟩ :=
      class_at_least_requested env.cfg he.cfg t leftover env.maps hm p.sm hp.sm size c hc
    rw [hsz] at hb1; simp at hb1; omega
  | own hb c hc hsz hs' hst htag => rw [hs] at hs'; cases hs'
  | guarded hb c bytes hsz hcap hc hs' htag => rw [hs] at hs'; cases hs'
  | pages tg hb hst hc hcap hsb hs ht htag hpg =>
    have : 1 * env.cfg.pageSize ≤ max (bytesToLengthCeil env.cfg size) 1 * env.cfg.pageSize :=
      Nat.mul_le_mul_right _ (Nat.le_max_right _ _)
    have := pageSize_pos env.cfg
    omega

/-- The size `do_realloc` predicts for a fresh block covers the request (unless the page count
wraps, and then it is 0). -/
theorem actualNewSize_spec {env : Env} {t : List Info} (he : env.OK t) (b : Block) {newSize : Nat}
    (hlt : newSize < 2 ^ 64) : ∃ a, actualNewSize env b newSize = some a ∧
      (0 < a → newSize ≤ a) ∧ 16 ∣ a := by
  obtain ⟨leftover, hm⟩ := he.maps
  have hal : ((mallocPol env.cfg 0).inPartition env.cfg (partitionFromPointer env.cfg b.addr)).sm.align = 16 := rfl
  have hpv : ((mallocPol env.cfg 0).inPartition env.cfg (partitionFromPointer env.cfg b.addr)).sm.Valid env.cfg :=
    ⟨⟨4, rfl⟩, (partFromPtr_lt he b.addr).1, (partFromPtr_lt he b.addr).2⟩
  unfold actualNewSize
  generalize ((mallocPol env.cfg 0).inPartition env.cfg (partitionFromPointer env.cfg b.addr)).sm = q at *
  cases hg : getSizeClass env.cfg env.maps q newSize with
  | none =>
    exfalso
    by_cases hl : env.cfg.maxSize < newSize ∨ env.cfg.pageSize < q.align
    · rw [(large_iff env.cfg he.cfg t leftover env.maps hm q hpv newSize).2 hl] at hg; cases hg
    · obtain ⟨c, e, h1, -⟩ :=
        class_is_tightest env.cfg he.cfg t leftover env.maps hm q hpv newSize (by omega) (by omega)
      rw [h1] at hg; cases hg
  | some r =>
    cases r with
    | small c =>
      obtain ⟨bytes, hb1, hb2, -⟩ :=
        class_at_least_requested env.cfg he.cfg t leftover env.maps hm q hpv newSize c hg
      refine ⟨bytes, hb1, fun _ => hb2, ?_⟩
      have := (class_blocks_aligned env.cfg he.cfg t leftover env.maps hm q hpv newSize c hg bytes hb1 0 1).1
      rw [hal] at this
      simpa using this
    | large =>
      have h16 : 16 ∣ inBytes64 env.cfg (bytesToLengthCeil env.cfg newSize) := by
        unfold inBytes64
        rw [Nat.shiftLeft_eq]
        have hb := he.cfg.base
        simp only [baseConfigs, List.mem_cons, Prod.mk.injEq, List.not_mem_nil, or_false] at hb
        have h16 : 16 ∣ 2 ^ env.cfg.pageShift := Nat.pow_dvd_pow 2 (show 4 ≤ env.cfg.pageShift by omega)
        exact (Nat.dvd_mod_iff (by decide)).2 (Nat.dvd_trans h16 (Nat.dvd_mul_left _ _))
      refine ⟨_, rfl, fun hpos => ?_, h16⟩
      have h1 := ceil_ge env.cfg newSize
      have h2 := ceil_lt env.cfg newSize
      unfold inBytes64 at hpos ⊢
      rw [Nat.shiftLeft_eq] at hpos ⊢
      change 0 < bytesToLengthCeil env.cfg newSize * env.cfg.pageSize % 2 ^ 64 at hpos
      change newSize ≤ bytesToLengthCeil env.cfg newSize * env.cfg.pageSize % 2 ^ 64
      by_cases hw : bytesToLengthCeil env.cfg newSize * env.cfg.pageSize < 2 ^ 64
      · rw [Nat.mod_eq_of_lt hw]; exact h1
      · exfalso
        -- a multiple of the page size in [2^64, 2^64 + page) is 2^64
        have hdvd : env.cfg.pageSize ∣ 2 ^ 64 := by
          have hb := he.cfg.base
          simp only [baseConfigs, List.mem_cons, Prod.mk.injEq, List.not_mem_nil, or_false] at hb
          exact Nat.pow_dvd_pow 2 (show env.cfg.pageShift ≤ 64 by omega)
        obtain ⟨w, hw'⟩ := hdvd
        have hle : w ≤ bytesToLengthCeil env.cfg newSize := by
          apply Classical.byContradiction
          intro hc
          have : (bytesToLengthCeil env.cfg newSize + 1) * env.cfg.pageSize ≤ w * env.cfg.pageSize :=
            Nat.mul_le_mul_right _ (by omega)
          rw [Nat.add_mul, Nat.mul_comm w] at this
          have := pageSize_pos env.cfg
          omega
        have hge : bytesToLengthCeil env.cfg newSize ≤ w := by
          apply Classical.byContradiction
          intro hc
          have : (w + 1) * env.cfg.pageSize ≤ bytesToLengthCeil env.cfg newSize * env.cfg.pageSize :=
            Nat.mul_le_mul_right _ (by omega)
          rw [Nat.add_mul, Nat.mul_comm w] at this
          omega
        have : bytesToLengthCeil env.cfg newSize * env.cfg.pageSize = 2 ^ 64 := by
          rw [Nat.le_antisymm hge hle, Nat.mul_comm, hw']
        rw [this] at hpos
        simp at hpos

end Verif.Frontend
