import Verif.Frontend.Lemmas4
/-!
Theorems about the entry points (C02, C03, C06, C07, C08, C09, C10, C42, C43).  The back end (caches,
page heap, guarded pages) enters only through its contract `Ans.OK`.
-/
namespace Verif.Frontend
open Verif.SizeMap
open Verif.MemoryTag

/-! ## Every allocation entry point -/

/-- **C02, C03.**  Whatever the entry point, partition, hot/cold hint, size and alignment: a block
that is returned has at least the requested number of usable bytes, is aligned as requested, the
capacity reported to size-returning callers is exactly the usable size, the block shares no byte
with any live block, and no live block's contents changed. -/
theorem allocation_correct {env : Env} {t : List Info} (he : env.OK t) {p : Pol} (hp : p.Valid env)
    {h : Heap} {size : Nat} {ans : Ans} (ha : ans.OK env p h size) {h' : Heap} {b : Block}
    {cap : Nat} (hr : fastAlloc env p h size ans = .ok (h', some (b, cap))) :
    getSize env b = some cap ∧ size ≤ cap ∧ p.kind.align ∣ b.addr ∧ 0 < b.addr ∧
    h'.live = b :: h.live ∧
    (∀ b' ∈ h.live, ∀ a, ¬ (b.Has env a ∧ b'.Has env a)) ∧
    (∀ b' ∈ h.live, ∀ a, b'.Has env a → h'.mem a = h.mem a) := by
  obtain ⟨h1, h2, h3, h4, h5, h6, h7, h8⟩ := fastAlloc_spec he hp ha hr
  refine ⟨h1, h2, h3, h4, by rw [h8], fun b' hb' => (ha.fresh h' b cap hr b' hb').2, ?_⟩
  intro b' hb' a hba
  rw [h8]
  exact ha.mem b' hb' a hba

/-- **C02 (failure).**  When no block is returned nothing was allocated, no live block changed, and
C-family callers get `ENOMEM`. -/
theorem allocation_failure {env : Env} {p : Pol} {h : Heap} {size : Nat} {ans : Ans}
    (ha : ans.OK env p h size) {h' : Heap} (hr : fastAlloc env p h size ans = .ok (h', none)) :
    h'.live = h.live ∧ (∀ b' ∈ h.live, ∀ a, b'.Has env a → h'.mem a = h.mem a) ∧
    p.oom ≠ .cpp ∧ (p.oom = .malloc → h'.errno = kENOMEM) ∧ (p.oom = .null → h'.errno = h.errno) := by
  rcases fastAlloc_none hr with ⟨h1, h2⟩ | ⟨h1, h2⟩ <;> subst h2
  · exact ⟨rfl, ha.mem, by simp [h1], by simp [h1], fun _ => rfl⟩
  · exact ⟨rfl, ha.mem, by simp [h1], fun _ => rfl, by simp [h1]⟩

/-! ## Sized and unsized deallocation -/

/-- **C06.**  Let `b` come from any allocation of `size` bytes (any family, partition, hint; cached,
sampled, guarded or large).  Freeing it through the sized call of the same family with a size the
caller is entitled to pass (the requested size; for size-returning calls, or for blocks that are not
sampled, anything up to the capacity), and freeing it through the unsized call, both succeed and send
it to the same place: the one it came from. -/
theorem sized_and_unsized_free_agree {env : Env} {t : List Info} (he : env.OK t) {p : Pol}
    (hp : p.Valid env) {h : Heap} {size : Nat} {ans : Ans} (ha : ans.OK env p h size) {h' : Heap}
    {b : Block} {cap : Nat} (hr : fastAlloc env p h size ans = .ok (h', some (b, cap)))
    (q : Pol) (hq : q.kind = p.kind) (size' : Nat) (h1 : size ≤ size') (h2 : size' ≤ cap)
    (hs : p.sizeRet = true ∨ b.sample = none ∨ size' = size) (k : Kind) (hk : FreeMatches k p.kind) :
    doFreeWithSize env q size' b = .ok b.home ∧ doFree env k b = .ok b.home := by
  obtain ⟨-, -, -, h4, -, h6, h7, -⟩ := fastAlloc_spec he hp ha hr
  exact ⟨doFreeWithSize_home he hp h7 h4 h6 hq h1 h2 hs, doFree_home he hp h7 h4 h6 hk⟩

/-- **C43.**  A sampled small block freed through a sized call with a size outside what its allocation
promised is always reported, whatever policy the call uses. -/
theorem wrong_sized_free_reported {env : Env} {t : List Info} (he : env.OK t) {p : Pol}
    (hp : p.Valid env) {h : Heap} {size : Nat} {ans : Ans} (ha : ans.OK env p h size) {h' : Heap}
    {b : Block} {cap : Nat} (hr : fastAlloc env p h size ans = .ok (h', some (b, cap)))
    (hsmall : size ≤ env.cfg.maxSize) (hal : p.kind.align ≤ env.cfg.pageSize) (hs : b.sample ≠ none)
    (q : Pol) (size' : Nat)
    (hbad : if p.sizeRet then size' < size ∨ cap < size' else size' ≠ size) :
    doFreeWithSize env q size' b = .error .mismatchedSize := by
  obtain ⟨leftover, hm⟩ := he.maps
  obtain ⟨-, -, -, h4, -, h6, h7, -⟩ := fastAlloc_spec he hp ha hr
  have key : ∀ bytes g, b.sample = some (mkSample p size bytes g) →
      (p.sizeRet = true → (mkSample p size bytes g).allocated = cap) →
      freePages env q.kind (some size') b = .error .mismatchedSize := by
    intro bytes g hsm hall
    unfold freePages
    have : unsampleChecks env q.kind (some size') b = .error .mismatchedSize := by
      unfold unsampleChecks
      rw [hsm]
      have hA : (if (mkSample p size bytes g).sizeRet = true then
          !(decide ((mkSample p size bytes g).requested ≤ size') &&
            decide (size' ≤ (mkSample p size bytes g).allocated))
          else decide (size' ≠ (mkSample p size bytes g).requested)) = true := by
        cases hsr : p.sizeRet
        · rw [hsr] at hbad
          simpa [mkSample, hsr] using hbad
        · rw [hsr] at hbad
          rw [hall hsr]
          have h5 : (mkSample p size bytes g).sizeRet = true := hsr
          rw [if_pos h5]
          simp at hbad ⊢
          exact hbad
      simp only [hA, if_true]
    rw [this]
  cases h7 with
  | cached c tg hc hb hs' hsz ht htag h8 hpos => exact absurd hs' hs
  | own hb c hc hsz hs' hst htag =>
    unfold doFreeWithSize
    rw [sampled_irregular htag h4 h6]
    simp only [sampled_mem htag, if_true]
    exact key cap false hs' (fun _ => rfl)
  | guarded hb c bytes hsz hcap hc hs' htag =>
    unfold doFreeWithSize
    rw [sampled_irregular htag h4 h6]
    simp only [sampled_mem htag, if_true]
    exact key bytes true hs' (fun hsr => by simp [mkSample, hsr, hcap])
  | pages tg hb hst hc hcap hsb hs' ht htag hpg =>
    have := (large_iff env.cfg he.cfg t leftover env.maps hm p.sm hp.sm size).1 hc
    rcases this with h | h
    · omega
    · have : p.sm.align = p.kind.align := rfl
      omega

/-- **C43.**  A sampled block allocated by one family (`new`/`malloc`) and freed by the other through
the unsized call is always reported. -/
theorem wrong_family_free_reported {env : Env} {t : List Info} (he : env.OK t) {p : Pol}
    (hp : p.Valid env) {h : Heap} {size : Nat} {ans : Ans} (ha : ans.OK env p h size) {h' : Heap}
    {b : Block} {cap : Nat} (hr : fastAlloc env p h size ans = .ok (h', some (b, cap)))
    (hs : b.sample ≠ none) (k : Kind) (hk : (k.type = .new) ≠ (p.kind.type = .new)) :
    doFree env k b = .error .mismatchedType := by
  obtain ⟨-, -, -, h4, -, h6, h7, -⟩ := fastAlloc_spec he hp ha hr
  have hst : simplifyType k.type ≠ simplifyType p.kind.type := by
    cases e1 : k.type <;> cases e2 : p.kind.type <;> simp_all [simplifyType]
  have key : ∀ bytes g, b.sample = some (mkSample p size bytes g) →
      freePages env k none b = .error .mismatchedType := by
    intro bytes g hsm
    unfold freePages
    have : unsampleChecks env k none b = .error .mismatchedType := by
      unfold unsampleChecks
      rw [hsm]
      have e0 : simplifyType k.type ≠ simplifyType (mkSample p size bytes g).type := hst
      simp only [Bool.false_eq_true, if_false]
      rw [if_pos e0]
    rw [this]
  cases h7 with
  | cached c tg hc hb hs' hsz ht htag h8 hpos => exact absurd hs' hs
  | own hb c hc hsz hs' hst' htag =>
    unfold doFree
    rw [sampled_irregular htag h4 h6]
    simp [high_zero h6, sampled_mem htag, hb, key _ _ hs']
  | guarded hb c bytes hsz hcap hc hs' htag =>
    unfold doFree
    rw [sampled_irregular htag h4 h6]
    simp [high_zero h6, sampled_mem htag, hb, key _ _ hs']
  | pages tg hb hst' hc hcap hsb hs' ht htag hpg =>
    have h8 : 8 ∣ b.addr := Nat.dvd_trans (pageSize_dvd8 he.cfg) hpg
    have hs'' := hs'.resolve_left hs
    unfold doFree
    rcases large_kind ht htag h8 h4 h6 with e | e <;> rw [e] <;>
      simp [hb, high_zero h6, low_zero h8, key _ _ hs'']

/-! ## Overflow-checked multiplication, calloc, reallocarray -/

/-- **C07.**  Both implementations of the overflow check agree and are exact. -/
theorem mul_overflow_exact (a b : Nat) :
    mulOverflow a b = mulOverflowFallback a b ∧
    ((mulOverflow a b).1 = true ↔ 2 ^ 64 ≤ a * b) ∧
    ((mulOverflow a b).1 = false → (mulOverflow a b).2 = a * b) := by
  refine ⟨?_, by simp [mulOverflow], ?_⟩
  · unfold mulOverflow mulOverflowFallback
    rw [Prod.mk.injEq]
    refine ⟨?_, rfl⟩
    rw [Bool.eq_iff_iff]
    simp only [ge_iff_le, decide_eq_true_eq, Bool.and_eq_true]
    constructor
    · intro h
      have hb0 : b ≠ 0 := by rintro rfl; simp at h
      refine ⟨hb0, fun he => ?_⟩
      have h1 := Nat.div_mul_le_self (a * b % 2 ^ 64) b
      rw [he] at h1
      have := Nat.mod_lt (a * b) (show 0 < 2 ^ 64 by omega)
      omega
    · rintro ⟨hb0, hne⟩
      apply Classical.byContradiction
      intro hlt
      apply hne
      rw [Nat.mod_eq_of_lt (by omega), Nat.mul_div_cancel _ (by omega)]
  · intro h
    simp only [mulOverflow, decide_eq_false_iff_not, ge_iff_le] at h
    exact Nat.mod_eq_of_lt (by omega)

/-- **C07.**  `calloc(n, m)`: if `n * m` does not fit in a `size_t` it fails with `ENOMEM` and changes
nothing else.  Otherwise it returns; a returned block has at least `n * m` usable bytes, all of
them zero, is 16-byte aligned, and no live block was touched. -/
theorem calloc_correct {env : Env} {t : List Info} (he : env.OK t) {numa : Nat}
    (hn1 : numa < env.cfg.numaParts) (hn2 : env.activeParts = 1 → numa = 0)
    (h : Heap) (n m : Nat) (ans : Ans) (ha : ans.OK env (mallocPol env.cfg numa) h (n * m)) :
    (2 ^ 64 ≤ n * m → calloc env numa h n m ans = .ok ({ h with errno := kENOMEM }, none)) ∧
    (n * m < 2 ^ 64 → ∃ h' r, calloc env numa h n m ans = .ok (h', r) ∧
      (∀ b' ∈ h.live, ∀ a, b'.Has env a → h'.mem a = h.mem a) ∧
      match r with
      | none => h'.live = h.live ∧ h'.errno = kENOMEM
      | some b => h'.live = b :: h.live ∧ 16 ∣ b.addr ∧
          (∃ u, getSize env b = some u ∧ n * m ≤ u) ∧
          (∀ b' ∈ h.live, ∀ a, ¬ (b.Has env a ∧ b'.Has env a)) ∧
          ∀ i, i < n * m → h'.mem (b.addr + i) = 0) := by
  constructor
  · intro hov
    unfold calloc mulOverflow handleOom
    rw [if_pos (by simpa using hov)]
  · intro hfit
    have hpv := mallocPol_valid he hn1 hn2 .malloc ⟨4, rfl⟩
    obtain ⟨h', r, hr⟩ := fastAlloc_returns he hpv (by simp [mallocPol])
      (show (16 : Nat) ≤ 2 ^ 21 by omega) h (n * m) ans
    have hmo : (mulOverflow n m).1 = false := by simp [mulOverflow]; omega
    have hmv : (mulOverflow n m).2 = n * m := by simp [mulOverflow]; omega
    unfold calloc malloc
    rw [hmo, hmv]
    have hr' : fastAlloc env (mallocPol env.cfg numa) h (n * m) ans = .ok (h', r) := hr
    rw [hr']
    cases r with
    | none =>
      obtain ⟨f1, f2, -, f4, -⟩ := allocation_failure ha hr'
      exact ⟨h', none, rfl, f2, f1, f4 rfl⟩
    | some bc =>
      obtain ⟨b, cap⟩ := bc
      obtain ⟨a1, a2, a3, a4, a5, a6, a7⟩ := allocation_correct he hpv ha hr'
      refine ⟨_, _, rfl, ?_, a5, a3, ⟨cap, a1, a2⟩, a6, ?_⟩
      · intro b' hb' a hba
        show memset0 h'.mem b.addr (n * m) a = _
        unfold memset0
        rw [if_neg]
        · exact a7 b' hb' a hba
        · rintro ⟨c1, c2⟩
          exact a6 b' hb' a ⟨⟨cap, a1, c1, by omega⟩, hba⟩
      · intro i hi
        show memset0 h'.mem b.addr (n * m) (b.addr + i) = 0
        unfold memset0
        rw [if_pos ⟨by omega, by omega⟩]

/-- **C07.**  `reallocarray(p, n, m)` with an overflowing product fails with `ENOMEM` and leaves the
block (and everything else) alone; otherwise it is `realloc(p, n * m)`. -/
theorem reallocArray_correct (env : Env) (numa : Nat) (h : Heap) (ptr : Option Block) (n m : Nat)
    (w : Bool) (ans : Ans) :
    (2 ^ 64 ≤ n * m → reallocArray env numa h ptr n m w ans = .ok ({ h with errno := kENOMEM }, none)) ∧
    (n * m < 2 ^ 64 → (∀ b, ptr = some b → b.addr < 2 ^ 48) →
      reallocArray env numa h ptr n m w ans = realloc env numa h ptr (n * m) w ans) := by
  constructor
  · intro hov
    unfold reallocArray mulOverflow handleOom
    rw [if_pos (by simpa using hov)]
  · intro hfit hb
    have hmo : (mulOverflow n m).1 = false := by simp [mulOverflow]; omega
    have hmv : (mulOverflow n m).2 = n * m := by simp [mulOverflow]; omega
    unfold reallocArray realloc
    rw [hmo, hmv]
    cases ptr with
    | none => rfl
    | some b => simp [high_zero (hb b rfl)]

/-! ## realloc -/

/-- **C08.**  `realloc(p, n)` with `n ≠ 0` on a live block obtained from the C family always returns.
* On failure: null, `ENOMEM`, the same blocks are live and no byte of any of them (the old block
  included) changed.
* On success: the result is live, the old block is not (unless it is the result), every other block is;
  the result has at least `n` usable bytes, is 16-byte aligned and shares no byte with another live block; its first
  `min(old usable size, n)` bytes are those of the old block; no byte of any other block changed. -/
theorem realloc_correct {env : Env} {t : List Info} (he : env.OK t) {numa : Nat}
    (hn1 : numa < env.cfg.numaParts) (hn2 : env.activeParts = 1 → numa = 0)
    {h : Heap} (hi : Inv env h) {b : Block} (hb : b ∈ h.live)
    (hfam : ∀ s, b.sample = some s → s.type ≠ .new) (newSize : Nat) (hnz : newSize ≠ 0)
    (hlt : newSize < 2 ^ 64) (w : Bool) (ans : Ans)
    (ha : ans.OK env (reallocPol env numa b) h newSize) :
    ∃ old h' r, getSize env b = some old ∧ realloc env numa h (some b) newSize w ans = .ok (h', r) ∧
      match r with
      | none => h'.live = h.live ∧ h'.errno = kENOMEM ∧
          ∀ b' ∈ h.live, ∀ a, b'.Has env a → h'.mem a = h.mem a
      | some nb => (∀ b', b' ∈ h'.live ↔ b' = nb ∨ (b' ∈ h.live ∧ b' ≠ b)) ∧
          (∃ u, getSize env nb = some u ∧ newSize ≤ u) ∧ 16 ∣ nb.addr ∧ Inv env h' ∧
          (∀ i, i < min old newSize → h'.mem (nb.addr + i) = h.mem (b.addr + i)) ∧
          ∀ b' ∈ h.live, b' ≠ b → ∀ a, b'.Has env a → h'.mem a = h.mem a := by
  have hbok := hi.blocks b hb
  obtain ⟨p0, sz0, old, hp0, ho0, hg0, h00, h480, hle0⟩ := hi.blocks b hb
  obtain ⟨act, hact, hactge, hact16⟩ := actualNewSize_spec he b hlt
  have hpv := reallocPol_valid he hn1 hn2 b
  have hreal : realloc env numa h (some b) newSize w ans = doRealloc env numa h b newSize w ans := by
    unfold realloc
    simp [high_zero h480, hnz]
  have hfree : ∀ hh : Heap, free env .malloc hh b = .ok (hh.remove b, b.home) := by
    intro hh
    unfold free
    have : doFree env .malloc b = .ok b.home := by
      by_cases hnew : p0.kind.type = .new
      · -- allocated by `new`: then it is not sampled and no check applies
        have hsn : b.sample = none := by
          cases hs : b.sample with
          | none => rfl
          | some s =>
            exfalso
            have h1 := hfam s hs
            cases ho0 with
            | cached c tg hc hb hs' hsz ht htag h8 hpos => rw [hs] at hs'; cases hs'
            | own hb c hc hsz hs' hst htag =>
              rw [hs] at hs'; simp at hs'; subst hs'; exact h1 hnew
            | guarded hb c bytes hsz hcap hc hs' htag =>
              rw [hs] at hs'; simp at hs'; subst hs'; exact h1 hnew
            | pages tg hb hst hc hcap hsb hs' ht htag hpg =>
              rw [hs] at hs'; simp at hs'; subst hs'; exact h1 hnew
        have h2 := doFree_home he hp0 ho0 h00 h480 (Or.inl rfl : FreeMatches p0.kind p0.kind)
        have h3 : doFree env .malloc b = doFree env p0.kind b := by
          unfold doFree freePages unsampleChecks
          rw [hsn]
        rw [h3, h2]
      · exact doFree_home he hp0 ho0 h00 h480 (Or.inr ⟨by simp [Kind.type], hnew⟩)
    rw [this]
  rw [hreal]
  unfold doRealloc
  rw [hg0, hact]
  by_cases hmove : (decide (act ≠ old) || b.sample.isSome || (decide (newSize ≤ env.cfg.maxSize) && w)
      || b.guarded) = true
  · simp only [hmove, if_true]
    obtain ⟨h', r, hr⟩ := fastAlloc_returns he hpv (by simp [reallocPol, mallocPol, Pol.inPartition])
      (show (16 : Nat) ≤ 2 ^ 21 by omega) h newSize ans
    rw [hr]
    cases r with
    | none =>
      obtain ⟨f1, f2, -, f4, -⟩ := allocation_failure ha hr
      exact ⟨old, h', none, rfl, rfl, f1, f4 rfl, f2⟩
    | some bc =>
      obtain ⟨nb, cap⟩ := bc
      obtain ⟨a1, a2, a3, a4, a5, a6, a7⟩ := allocation_correct he hpv ha hr
      have hinv' := Inv.cons he hpv hi ha hr
      have hfr := ha.fresh h' nb cap hr b hb
      have hn : (if old < newSize then old else newSize) = min old newSize := by
        rw [Nat.min_def]; split <;> split <;> omega
      simp only [hn]
      have hno : ¬ (b.addr < nb.addr + min old newSize ∧ nb.addr < b.addr + min old newSize) := by
        rintro ⟨o1, o2⟩
        rcases Nat.le_total b.addr nb.addr with hc | hc
        · exact hfr.2 nb.addr ⟨⟨cap, a1, by omega, by omega⟩, ⟨old, hg0, hc, by omega⟩⟩
        · exact hfr.2 b.addr ⟨⟨cap, a1, hc, by omega⟩, ⟨old, hg0, by omega, by omega⟩⟩
      rw [if_neg hno, hfree]
      have hlive : ({ h' with mem := memcpy h'.mem nb.addr b.addr (min old newSize) } : Heap).remove b =
          ⟨memcpy h'.mem nb.addr b.addr (min old newSize), h'.live.erase b, h'.errno⟩ := rfl
      have hnbne : nb ≠ b := fun hc => hfr.1 (by rw [hc])
      refine ⟨old, _, some nb, rfl, rfl, ?_, ⟨cap, a1, a2⟩, a3, ?_, ?_, ?_⟩
      · intro b'
        show b' ∈ h'.live.erase b ↔ _
        rw [hinv'.nodup.mem_erase_iff, a5, List.mem_cons]
        constructor
        · rintro ⟨k1, k2 | k2⟩
          · exact Or.inl k2
          · exact Or.inr ⟨k2, k1⟩
        · rintro (k1 | ⟨k1, k2⟩)
          · subst k1; exact ⟨hnbne, Or.inl rfl⟩
          · exact ⟨k2, Or.inr k1⟩
      · rw [hlive]; exact hinv'.erase b _ _
      · intro i hi'
        show memcpy h'.mem nb.addr b.addr (min old newSize) (nb.addr + i) = _
        unfold memcpy
        rw [if_pos ⟨by omega, by omega⟩, show b.addr + (nb.addr + i - nb.addr) = b.addr + i by omega]
        exact a7 b hb _ ⟨old, hg0, by omega, by omega⟩
      · intro b' hb' hne a hba
        show memcpy h'.mem nb.addr b.addr (min old newSize) a = _
        unfold memcpy
        rw [if_neg]
        · exact a7 b' hb' a hba
        · rintro ⟨c1, c2⟩
          exact a6 b' hb' a ⟨⟨cap, a1, c1, by omega⟩, hba⟩
  · simp only [hmove, Bool.false_eq_true, if_false]
    simp only [Bool.or_eq_true, decide_eq_true_eq, not_or] at hmove
    obtain ⟨⟨⟨m1, m2⟩, m3⟩, m4⟩ := hmove
    have hsn : b.sample = none := by simpa using m2
    have hpos := getSize_unsampled_pos he hbok hsn hg0
    have hao : act = old := by simpa using m1
    have h16 : 16 ∣ b.addr := by
      cases ho0 with
      | cached c tg hc hb hs' hsz ht htag h8 hpos' =>
        obtain ⟨ss, i, k1, k2⟩ := hpos'
        rw [k2, ← hao]
        exact Nat.dvd_add (Nat.dvd_trans (pageSize_dvd16 he.cfg) k1)
          (Nat.dvd_trans hact16 (Nat.dvd_mul_left _ _))
      | own hb c hc hsz hs' hst htag => rw [hsn] at hs'; cases hs'
      | guarded hb c bytes hsz hcap hc hs' htag => rw [hsn] at hs'; cases hs'
      | pages tg hb hst hc hcap hsb hs' ht htag hpg => exact Nat.dvd_trans (pageSize_dvd16 he.cfg) hpg
    refine ⟨old, h, some b, rfl, rfl, ?_, ⟨old, hg0, by rw [← hao]; exact hactge (by omega)⟩, h16, hi,
      fun _ _ => rfl, fun _ _ _ _ _ => rfl⟩
    intro b'
    by_cases hbb : b' = b
    · subst hbb; simp [hb]
    · simp [hbb]

/-- **C08.**  `realloc(NULL, n)` is `malloc(n)`. -/
theorem realloc_null (env : Env) (numa : Nat) (h : Heap) (size : Nat) (w : Bool) (ans : Ans) :
    realloc env numa h none size w ans = malloc env numa h size ans := rfl

/-- **C08.**  `realloc(p, 0)` frees `p`, returns null and touches nothing else. -/
theorem realloc_zero {env : Env} {t : List Info} (he : env.OK t) (numa : Nat)
    {h : Heap} (hi : Inv env h) {b : Block} (hb : b ∈ h.live)
    (hfam : ∀ s, b.sample = some s → s.type ≠ .new) (w : Bool) (ans : Ans) :
    realloc env numa h (some b) 0 w ans = .ok ({ h with live := h.live.erase b }, none) := by
  obtain ⟨p0, sz0, old, hp0, ho0, hg0, h00, h480, hle0⟩ := hi.blocks b hb
  unfold realloc
  simp only [high_zero h480]
  have : doFree env .malloc b = .ok b.home := by
    by_cases hnew : p0.kind.type = .new
    · have hsn : b.sample = none := by
        cases hs : b.sample with
        | none => rfl
        | some s =>
          exfalso
          have h1 := hfam s hs
          cases ho0 with
          | cached c tg hc hb hs' hsz ht htag h8 hpos => rw [hs] at hs'; cases hs'
          | own hb c hc hsz hs' hst htag =>
            rw [hs] at hs'; simp at hs'; subst hs'; exact h1 hnew
          | guarded hb c bytes hsz hcap hc hs' htag =>
            rw [hs] at hs'; simp at hs'; subst hs'; exact h1 hnew
          | pages tg hb hst hc hcap hsb hs' ht htag hpg =>
            rw [hs] at hs'; simp at hs'; subst hs'; exact h1 hnew
      have h2 := doFree_home he hp0 ho0 h00 h480 (Or.inl rfl : FreeMatches p0.kind p0.kind)
      have h3 : doFree env .malloc b = doFree env p0.kind b := by
        unfold doFree freePages unsampleChecks
        rw [hsn]
      rw [h3, h2]
    · exact doFree_home he hp0 ho0 h00 h480 (Or.inr ⟨by simp [Kind.type], hnew⟩)
  unfold free
  rw [this]
  simp [Heap.remove]

/-! ## Aligned entry points -/

theorem hasSingleBit_iff (x : Nat) : hasSingleBit x = true ↔ ∃ k, x = 2 ^ k := by
  unfold hasSingleBit
  rw [Bool.and_eq_true, decide_eq_true_eq, decide_eq_true_eq,
    Nat.ne_zero_and_sub_one_eq_zero_iff_isPowerOfTwo]
  rfl

/-- `memalign` with a power-of-two alignment of at most 2 MiB. -/
theorem memalign_correct {env : Env} {t : List Info} (he : env.OK t) {numa : Nat}
    (hn1 : numa < env.cfg.numaParts) (hn2 : env.activeParts = 1 → numa = 0)
    (h : Heap) (align size : Nat) (hal : ∃ k, k ≤ 21 ∧ align = 2 ^ k) (ans : Ans)
    (ha : ans.OK env { mallocPol env.cfg numa with kind := .memalign align } h size) :
    ∃ h' r, memalign env numa h align size ans = .ok (h', r) ∧
      (∀ b' ∈ h.live, ∀ a, b'.Has env a → h'.mem a = h.mem a) ∧
      match r with
      | none => h'.live = h.live ∧ h'.errno = kENOMEM
      | some b => h'.live = b :: h.live ∧ align ∣ b.addr ∧ (∃ u, getSize env b = some u ∧ size ≤ u) ∧
          ∀ b' ∈ h.live, ∀ a, ¬ (b.Has env a ∧ b'.Has env a) := by
  obtain ⟨k, hk, rfl⟩ := hal
  have hpv := mallocPol_valid he hn1 hn2 (.memalign (2 ^ k)) ⟨k, rfl⟩
  obtain ⟨h', r, hr⟩ := fastAlloc_returns he hpv (by simp [mallocPol])
    (show 2 ^ k ≤ 2 ^ 21 from Nat.pow_le_pow_right (by omega) hk) h size ans
  unfold memalign
  rw [hr]
  cases r with
  | none =>
    obtain ⟨f1, f2, -, f4, -⟩ := allocation_failure ha hr
    exact ⟨h', none, rfl, f2, f1, f4 rfl⟩
  | some bc =>
    obtain ⟨b, cap⟩ := bc
    obtain ⟨a1, a2, a3, a4, a5, a6, a7⟩ := allocation_correct he hpv ha hr
    exact ⟨h', some b, rfl, a7, a5, a3, ⟨cap, a1, a2⟩, a6⟩

/-- **C09.**  `aligned_alloc`: an alignment that is not a power of two gives null and `EINVAL` and
changes nothing else; a power of two up to 2 MiB gives a block aligned to it (or null and
`ENOMEM`). -/
theorem alignedAlloc_correct {env : Env} {t : List Info} (he : env.OK t) {numa : Nat}
    (hn1 : numa < env.cfg.numaParts) (hn2 : env.activeParts = 1 → numa = 0)
    (h : Heap) (align size : Nat) (ans : Ans)
    (ha : ans.OK env { mallocPol env.cfg numa with kind := .memalign align } h size) :
    ((¬ ∃ k, align = 2 ^ k) →
      alignedAlloc env numa h align size ans = .ok ({ h with errno := kEINVAL }, none)) ∧
    ((∃ k, k ≤ 21 ∧ align = 2 ^ k) → ∃ h' r, alignedAlloc env numa h align size ans = .ok (h', r) ∧
      (∀ b' ∈ h.live, ∀ a, b'.Has env a → h'.mem a = h.mem a) ∧
      match r with
      | none => h'.live = h.live ∧ h'.errno = kENOMEM
      | some b => h'.live = b :: h.live ∧ align ∣ b.addr ∧ (∃ u, getSize env b = some u ∧ size ≤ u) ∧
          ∀ b' ∈ h.live, ∀ a, ¬ (b.Has env a ∧ b'.Has env a)) := by
  constructor
  · intro hn
    unfold alignedAlloc
    rw [← hasSingleBit_iff] at hn
    simp [Bool.eq_false_iff.2 hn]
  · intro hal
    unfold alignedAlloc
    have hsb : hasSingleBit align = true := (hasSingleBit_iff align).2 (hal.imp fun _ h => h.2)
    rw [hsb]
    exact memalign_correct he hn1 hn2 h align size hal ans ha

/-- **C09.**  `posix_memalign`: an alignment that is not a power of two multiple of `sizeof(void*)`
gives `EINVAL`, stores nothing, and leaves the heap and `errno` alone; otherwise (up to 2 MiB) it gives
0 and stores an aligned block, or `ENOMEM` and stores nothing. -/
theorem posixMemalign_correct {env : Env} {t : List Info} (he : env.OK t) {numa : Nat}
    (hn1 : numa < env.cfg.numaParts) (hn2 : env.activeParts = 1 → numa = 0)
    (h : Heap) (align size : Nat) (ans : Ans)
    (ha : ans.OK env { mallocPol env.cfg numa with kind := .memalign align } h size) :
    ((¬ ∃ k, 3 ≤ k ∧ align = 2 ^ k) → posixMemalign env numa h align size ans = .ok (h, kEINVAL, none)) ∧
    ((∃ k, 3 ≤ k ∧ k ≤ 21 ∧ align = 2 ^ k) →
      ∃ h' st r, posixMemalign env numa h align size ans = .ok (h', st, r) ∧
      (∀ b' ∈ h.live, ∀ a, b'.Has env a → h'.mem a = h.mem a) ∧
      match r with
      | none => h'.live = h.live ∧ st = kENOMEM
      | some b => st = 0 ∧ h'.live = b :: h.live ∧ align ∣ b.addr ∧
          (∃ u, getSize env b = some u ∧ size ≤ u) ∧
          ∀ b' ∈ h.live, ∀ a, ¬ (b.Has env a ∧ b'.Has env a)) := by
  constructor
  · intro hn
    unfold posixMemalign
    rw [if_pos]
    apply Classical.byContradiction
    intro hc
    simp only [not_or, Classical.not_not] at hc
    obtain ⟨h1, h2⟩ := hc
    obtain ⟨k, hk⟩ := (hasSingleBit_iff align).1 (by simpa using h2)
    apply hn
    refine ⟨k, ?_, hk⟩
    apply Classical.byContradiction
    intro hk3
    have : k = 0 ∨ k = 1 ∨ k = 2 := by omega
    rcases this with rfl | rfl | rfl <;> rw [hk] at h1 <;> revert h1 <;> decide
  · rintro ⟨k, hk3, hk21, hk⟩
    unfold posixMemalign
    have h1 : align % 8 = 0 := by
      rw [hk]; exact Nat.mod_eq_zero_of_dvd (Nat.pow_dvd_pow 2 hk3)
    have h2 : hasSingleBit align = true := (hasSingleBit_iff align).2 ⟨k, hk⟩
    rw [if_neg (by simp [h1, h2])]
    obtain ⟨h', r, e1, e2, e3⟩ := memalign_correct he hn1 hn2 h align size ⟨k, hk21, hk⟩ ans ha
    rw [e1]
    cases r with
    | none => exact ⟨h', kENOMEM, none, rfl, e2, e3.1, rfl⟩
    | some b => exact ⟨h', 0, some b, rfl, e2, rfl, e3⟩

/-- **C09.**  `pvalloc` rounds the request up to a whole number of OS pages (at least one), as long as
the rounded size is a `size_t`. -/
theorem pvalloc_rounds (osPage size : Nat) (hp : ∃ k, k < 64 ∧ osPage = 2 ^ k)
    (hs : size ≤ 2 ^ 64 - osPage) :
    osPage ∣ pvallocSize osPage size ∧ size ≤ pvallocSize osPage size ∧
    osPage ≤ pvallocSize osPage size ∧
    (pvallocSize osPage size < size + osPage ∨ size = 0) := by
  obtain ⟨k, hk, rfl⟩ := hp
  have hpos := Nat.two_pow_pos k
  have hlt : 2 ^ k < 2 ^ 64 := Nat.pow_lt_pow_right (by omega) hk
  unfold pvallocSize
  simp only
  have hround : ∀ x, x < 2 ^ 64 → x &&& ((2 ^ 64 - 1) ^^^ (2 ^ k - 1)) = x / 2 ^ k * 2 ^ k := by
    intro x hx
    apply Nat.eq_of_testBit_eq
    intro i
    rw [Nat.testBit_and, Nat.testBit_xor, Nat.testBit_two_pow_sub_one, Nat.testBit_two_pow_sub_one,
      Nat.testBit_mul_two_pow, Nat.testBit_div_two_pow]
    by_cases hi : i < 64
    · by_cases hik : i < k
      · simp [hi, hik, show ¬ k ≤ i by omega]
      · simp [hi, hik, show k ≤ i by omega, Nat.sub_add_cancel (show k ≤ i by omega)]
    · have : x.testBit i = false :=
        Nat.testBit_lt_two_pow (Nat.lt_of_lt_of_le hx (Nat.pow_le_pow_right (by omega) (by omega)))
      by_cases hik : k ≤ i
      · simp [this, hik, Nat.sub_add_cancel hik]
      · omega
  by_cases hz : size = 0
  · subst hz
    rw [if_pos rfl, Nat.mod_eq_of_lt]
    · rw [hround]
      · have e1 : (2 ^ k + 2 ^ k - 1) / 2 ^ k = 1 := by
          rw [Nat.div_eq_iff hpos]; omega
        rw [e1]
        refine ⟨by simp, by omega, by omega, Or.inr rfl⟩
      · have : 2 ^ (k + 1) ≤ 2 ^ 64 := Nat.pow_le_pow_right (by omega) (by omega)
        rw [Nat.pow_succ] at this; omega
    · have : 2 ^ (k + 1) ≤ 2 ^ 64 := Nat.pow_le_pow_right (by omega) (by omega)
      rw [Nat.pow_succ] at this; omega
  · rw [if_neg hz, Nat.mod_eq_of_lt (by omega), hround _ (by omega)]
    have h1 := Nat.div_add_mod (size + 2 ^ k - 1) (2 ^ k)
    have h2 := Nat.mod_lt (size + 2 ^ k - 1) hpos
    rw [Nat.mul_comm] at h1
    refine ⟨Nat.dvd_mul_left _ _, by omega, ?_, Or.inl (by omega)⟩
    have : 1 ≤ (size + 2 ^ k - 1) / 2 ^ k := (Nat.le_div_iff_mul_le hpos).2 (by omega)
    exact Nat.le_mul_of_pos_left _ this

/-- **C09, false of the code.**  Above that, the rounding wraps: `pvalloc` asks for 0 bytes (and so
returns a tiny block instead of failing). -/
theorem pvalloc_wraps (k size : Nat) (hk : k < 64) (h1 : 2 ^ 64 - 2 ^ k < size) (h2 : size < 2 ^ 64) :
    pvallocSize (2 ^ k) size = 0 := by
  have hpos := Nat.two_pow_pos k
  have hlt : 2 ^ k < 2 ^ 64 := Nat.pow_lt_pow_right (by omega) hk
  unfold pvallocSize
  simp only
  rw [if_neg (by omega)]
  have e : (size + 2 ^ k - 1) % 2 ^ 64 < 2 ^ k := by
    rw [Nat.mod_eq_sub_mod (by omega), Nat.mod_eq_of_lt (by omega)]; omega
  generalize (size + 2 ^ k - 1) % 2 ^ 64 = x at e
  apply Nat.eq_of_testBit_eq
  intro i
  rw [Nat.testBit_and, Nat.testBit_xor, Nat.testBit_two_pow_sub_one, Nat.testBit_two_pow_sub_one,
    Nat.zero_testBit]
  by_cases hik : i < k
  · simp [hik, show i < 64 by omega]
  · rw [Nat.testBit_lt_two_pow (Nat.lt_of_lt_of_le e (Nat.pow_le_pow_right (by omega) (by omega)))]
    rfl

/-- **C09, false of the code.**  A power-of-two alignment above 2 MiB does not fail: it aborts the
process (for every size and state). -/
theorem alignedAlloc_huge_alignment_aborts {env : Env} {t : List Info} (he : env.OK t) {numa : Nat}
    (hn1 : numa < env.cfg.numaParts) (hn2 : env.activeParts = 1 → numa = 0)
    (h : Heap) (k size : Nat) (hk : 21 < k) (ans : Ans) :
    alignedAlloc env numa h (2 ^ k) size ans = .error .alignCheck := by
  obtain ⟨leftover, hm⟩ := he.maps
  have hpv := mallocPol_valid he hn1 hn2 (.memalign (2 ^ k)) ⟨k, rfl⟩
  have hb := he.cfg.base
  simp only [baseConfigs, List.mem_cons, Prod.mk.injEq, List.not_mem_nil, or_false] at hb
  have hsh : env.cfg.pageShift ≤ 18 := by omega
  unfold alignedAlloc memalign fastAlloc
  rw [(hasSingleBit_iff _).2 ⟨k, rfl⟩]
  have hlarge := (large_iff env.cfg he.cfg t leftover env.maps hm _ hpv.sm size).2 (Or.inr (by
    show env.cfg.pageSize < 2 ^ k
    exact Nat.pow_lt_pow_right (by omega) (by omega)))
  rw [hlarge]
  have : bytesToLengthCeil env.cfg (Kind.memalign (2 ^ k)).align > pagesPerHuge env.cfg := by
    show bytesToLengthCeil env.cfg (2 ^ k) > pagesPerHuge env.cfg
    unfold bytesToLengthCeil pagesPerHuge Cfg.pageSize kHugePageShift
    rw [Nat.shiftRight_eq_div_pow, Nat.mod_eq_zero_of_dvd (Nat.pow_dvd_pow 2 (by omega)), if_pos rfl,
      Nat.pow_div (by omega) (by omega)]
    exact Nat.pow_lt_pow_right (by omega) (by omega)
  simp only [Bool.not_true, Bool.false_eq_true, if_false]
  rw [if_pos this]

/-! ## nallocx -/

/-- **C10 (partial).**  `nallocx(size, lg_align)` is exactly the usable size (and reported capacity) of
any block an allocation of that size and alignment can return — for every family, partition and
hot/cold hint.  Excluded: guarded blocks (their usable size is the requested size), and `size = 0`
with an alignment above the page size (see `nallocx_zero_overaligned`). -/
theorem nallocx_exact_partial {env : Env} {t : List Info} (he : env.OK t) {numa : Nat}
    (hn1 : numa < env.cfg.numaParts) (flags : Nat) {p : Pol} (hp : p.Valid env)
    (hal : p.kind.align = if flags = 0 then 1 else 2 ^ (flags % 64))
    {h : Heap} {size : Nat} {ans : Ans} (ha : ans.OK env p h size) {h' : Heap} {b : Block}
    {cap : Nat} (hr : fastAlloc env p h size ans = .ok (h', some (b, cap)))
    (hg : b.guarded = false) (hz : size ≠ 0 ∨ p.kind.align ≤ env.cfg.pageSize) :
    nallocx env numa size flags = getSize env b := by
  obtain ⟨leftover, hm⟩ := he.maps
  obtain ⟨h1, h2, h3, h4, h5, h6, h7, -⟩ := fastAlloc_spec he hp ha hr
  have hqa : (cppPol env.cfg numa (if flags = 0 then Kind.new else .newAligned (2 ^ (flags % 64)))).sm.align =
      p.sm.align := by
    show Kind.align _ = p.kind.align
    rw [hal]; split <;> rfl
  have hqv : (cppPol env.cfg numa (if flags = 0 then Kind.new else .newAligned (2 ^ (flags % 64)))).sm.Valid env.cfg := by
    refine ⟨?_, ?_, hn1⟩
    · rw [hqa]; exact hp.sm.pow2
    · show (if env.cfg.secParts = 1 then 0 else 1) < env.cfg.secParts
      rcases parts_sec he.cfg with h | h <;> simp [h]
  unfold nallocx
  simp only
  rw [h1]
  have hsmall : ∀ c, getSizeClass env.cfg env.maps p.sm size = some (.small c) →
      env.maps.classToSize[c]? = some cap →
      (match getSizeClass env.cfg env.maps
          (cppPol env.cfg numa (if flags = 0 then Kind.new else .newAligned (2 ^ (flags % 64)))).sm size with
        | none => none
        | some (.small c) => env.maps.classToSize[c]?
        | some .large => some (inBytes64 env.cfg (bytesToLengthCeil env.cfg size))) = some cap := by
    intro c hc hsz
    obtain ⟨c', e1, e2⟩ := class_size_eq he.cfg hm hp.sm hqv hqa hc
    rw [e1]
    simp only
    rw [e2, hsz]
  cases h7 with
  | cached c tg hc hb hs hsz ht htag h8 hpos => exact hsmall c hc hsz
  | own hb c hc hsz hs hst htag => exact hsmall c hc hsz
  | guarded hb c bytes hsz hcap hc hs htag => simp [Block.guarded, hs, mkSample] at hg
  | pages tg hb hst hc hcap hsb hs ht htag hpg =>
    have hl := (large_iff env.cfg he.cfg t leftover env.maps hm p.sm hp.sm size).1 hc
    rw [(large_iff env.cfg he.cfg t leftover env.maps hm _ hqv size).2 (by rw [hqa]; exact hl)]
    simp only
    have hsz : size ≠ 0 := by
      rcases hz with hz | hz
      · exact hz
      · rcases hl with hl | hl
        · omega
        · have : p.sm.align = p.kind.align := rfl
          omega
    have hc1 : 1 ≤ bytesToLengthCeil env.cfg size := by
      have := ceil_ge env.cfg size
      apply Classical.byContradiction
      intro hc0
      rw [show bytesToLengthCeil env.cfg size = 0 by omega] at this
      omega
    rw [show max (bytesToLengthCeil env.cfg size) 1 = bytesToLengthCeil env.cfg size by omega] at hcap
    rw [inBytes64_eq _ _ (by omega), hcap]

/-- **C10, false of the code.**  `nallocx(0, lg)` with an alignment above the page size answers 0,
although the block such an allocation returns has a whole page. -/
theorem nallocx_zero_overaligned {env : Env} {t : List Info} (he : env.OK t) {numa : Nat}
    (hn1 : numa < env.cfg.numaParts) (k : Nat) (hk : env.cfg.pageShift < k) (hk2 : k < 64) :
    nallocx env numa 0 k = some 0 := by
  obtain ⟨leftover, hm⟩ := he.maps
  unfold nallocx
  simp only
  rw [if_neg (by omega), Nat.mod_eq_of_lt hk2]
  have hqv : (cppPol env.cfg numa (.newAligned (2 ^ k))).sm.Valid env.cfg := by
    refine ⟨⟨k, rfl⟩, ?_, hn1⟩
    show (if env.cfg.secParts = 1 then 0 else 1) < env.cfg.secParts
    rcases parts_sec he.cfg with h | h <;> simp [h]
  rw [(large_iff env.cfg he.cfg t leftover env.maps hm _ hqv 0).2 (Or.inr (by
    show env.cfg.pageSize < 2 ^ k
    exact Nat.pow_lt_pow_right (by omega) hk))]
  simp [bytesToLengthCeil, inBytes64]

end Verif.Frontend
