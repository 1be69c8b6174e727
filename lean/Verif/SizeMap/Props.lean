import Verif.SizeMap.Lemmas3
import Verif.SizeMap.Tables
/-!
Properties of the size-class map (C02, C03, C04, C05, C06 at the level of size classes).

`init cfg t leftover = .ok m` says that `m` is what `SizeMap::Init` produced from the table `t`.
Every theorem is for every shipped build configuration, every table `Init` accepts, every policy
and every request.
-/
namespace Verif.SizeMap

/-- **C04 (existence).**  `Init` accepts a table exactly when `ValidSizeClasses` does, and then
it never writes outside its arrays. -/
theorem init_succeeds_iff (cfg : Cfg) (hc : cfg.Shipped) (t : List Info)
    (hl : t.length ≤ cfg.numBase) (leftover : Nat) :
    (∃ m, init cfg t leftover = .ok m) ↔ validSizeClasses cfg t = true := by
  constructor
  · rintro ⟨m, h⟩; exact (init_inv hc.ok h).2.1
  · intro h; obtain ⟨m, hm, _⟩ := init_ok hc.ok hl h leftover; exact ⟨m, hm⟩

/-- **C04.** A request for at most `kMaxSize` bytes with an alignment up to the page size is
served by a small class `c`, whose block size is that of the *tightest* table entry which is big
enough and aligned; `c` lies in the class group of the requested partition; and its span length
and batch size are that entry's. -/
theorem class_is_tightest (cfg : Cfg) (hc : cfg.Shipped) (t : List Info) (leftover : Nat)
    (m : Maps) (hm : init cfg t leftover = .ok m) (p : Policy) (hp : p.Valid cfg) (size : Nat)
    (hsize : size ≤ cfg.maxSize) (halign : p.align ≤ cfg.pageSize) :
    ∃ c e, getSizeClass cfg m p size = some (.small c) ∧ BestClass t size p.align e ∧
      m.classToSize[c]? = some e.size ∧
      m.classToPages[c]? = some (e.bytes / cfg.pageSize) ∧
      m.numToMove[c]? = some e.numToMove ∧
      groupStart cfg p size < c ∧ c < groupStart cfg p size + cfg.numBase ∧ c < cfg.numClasses := by
  obtain ⟨hl, hv, mo⟩ := init_inv hc.ok hm
  obtain ⟨b, c, e, h1, h2, h3, h4, h5, h6, h7, h8⟩ :=
    getSizeClass_small hc.ok hl hv mo hp halign hsize
  have hbig := hc.ok.big
  have g := goodSizes_of_valid (by omega) hl hv
  have hcl := (List.getElem?_eq_some_iff.1 h5).1
  have hts : ∀ (d : Nat) (e : Info), t[d]? = some e → (t.map (·.size))[d]? = some e.size := by
    intro d e he; rw [List.getElem?_map, he]; rfl
  refine ⟨b * cfg.numBase + c, e, h1, ⟨?_, h6, h7, ?_⟩, ?_, ?_, ?_, by omega, by omega, ?_⟩
  · cases t with
    | nil => simp at hcl
    | cons a t =>
      obtain ⟨c', rfl⟩ : ∃ c', c = c' + 1 := ⟨c - 1, by omega⟩
      simp at h5
      exact List.mem_of_getElem? h5
  · intro e' he' hs' ha'
    obtain ⟨i, hi⟩ := List.getElem?_of_mem he'
    rw [List.getElem?_tail] at hi
    by_cases hic : i + 1 < c
    · exact absurd ⟨hs', ha'⟩ (h8 (i + 1) e' (by omega) hic hi)
    · by_cases hie : i + 1 = c
      · rw [hie, h5] at hi; injection hi with hi; subst hi; exact Nat.le_refl _
      · have := g.incr c (i + 1) _ _ (by omega) (hts _ _ h5) (hts _ _ hi); omega
  · rw [mo.sz, setRegister_get _ (by simpa using hl) h3 (by simpa using hcl), List.getElem?_map, h5]
    rfl
  · rw [mo.pg, setRegister_get _ (by simpa using hl) h3 (by simpa using hcl), List.getElem?_map, h5]
    simp [bytesToLengthFloor, Nat.shiftRight_eq_div_pow, Cfg.pageSize]
  · rw [mo.mv, setRegister_get _ (by simpa using hl) h3 (by simpa using hcl), List.getElem?_map, h5]
    rfl
  · have h9 : (b + 1) * cfg.numBase ≤ cfg.numClasses / cfg.numBase * cfg.numBase :=
      Nat.mul_le_mul_right _ h3
    have := Nat.div_mul_le_self cfg.numClasses cfg.numBase
    rw [Nat.add_mul] at h9
    omega

/-- **C04 (other direction).**  Larger requests, and requests aligned beyond a page, are never
given a small class: they go to the page heap. -/
theorem large_iff (cfg : Cfg) (hc : cfg.Shipped) (t : List Info) (leftover : Nat) (m : Maps)
    (hm : init cfg t leftover = .ok m) (p : Policy) (hp : p.Valid cfg) (size : Nat) :
    getSizeClass cfg m p size = some .large ↔ cfg.maxSize < size ∨ cfg.pageSize < p.align := by
  constructor
  · intro h
    apply Classical.byContradiction
    intro hn
    obtain ⟨c, e, h1, _⟩ := class_is_tightest cfg hc t leftover m hm p hp size (by omega) (by omega)
    rw [h1] at h; simp at h
  · intro h; exact getSizeClass_large hc.ok h.symm

/-- **C02.**  The block of the class chosen for a request is never smaller than the request. -/
theorem class_at_least_requested (cfg : Cfg) (hc : cfg.Shipped) (t : List Info) (leftover : Nat)
    (m : Maps) (hm : init cfg t leftover = .ok m) (p : Policy) (hp : p.Valid cfg) (size c : Nat)
    (h : getSizeClass cfg m p size = some (.small c)) :
    ∃ bytes, m.classToSize[c]? = some bytes ∧ size ≤ bytes ∧ bytes ≤ cfg.maxSize ∧ 0 < bytes := by
  have hnl : ¬ (cfg.maxSize < size ∨ cfg.pageSize < p.align) := by
    intro hn; rw [(large_iff cfg hc t leftover m hm p hp size).2 hn] at h; simp at h
  obtain ⟨c', e, h1, h2, h3, -⟩ :=
    class_is_tightest cfg hc t leftover m hm p hp size (by omega) (by omega)
  rw [h1] at h; simp at h; subst h
  obtain ⟨hl, hv, mo⟩ := init_inv hc.ok hm
  obtain ⟨rest, rfl, hvl, -⟩ := valid_cases hl hv
  have := isValidSizeClass_true ((validLoop_true rest _ hvl).1 e h2.1).2.2
  exact ⟨e.size, h3, h2.2.1, this.2.1, this.1⟩

/-- **C03.**  Blocks of the chosen class are laid out from a page boundary with a stride that is
a multiple of the requested alignment: every block address is aligned, wherever the span is. -/
theorem class_blocks_aligned (cfg : Cfg) (hc : cfg.Shipped) (t : List Info) (leftover : Nat)
    (m : Maps) (hm : init cfg t leftover = .ok m) (p : Policy) (hp : p.Valid cfg) (size c : Nat)
    (h : getSizeClass cfg m p size = some (.small c)) (bytes : Nat)
    (hb : m.classToSize[c]? = some bytes) (page i : Nat) :
    p.align ∣ page * cfg.pageSize + i * bytes ∧ 8 ∣ page * cfg.pageSize + i * bytes := by
  have hnl : ¬ (cfg.maxSize < size ∨ cfg.pageSize < p.align) := by
    intro hn; rw [(large_iff cfg hc t leftover m hm p hp size).2 hn] at h; simp at h
  obtain ⟨c', e, h1, h2, h3, -⟩ :=
    class_is_tightest cfg hc t leftover m hm p hp size (by omega) (by omega)
  rw [h1] at h; simp at h; subst h
  rw [h3] at hb; simp at hb; subst hb
  obtain ⟨hl, hv, mo⟩ := init_inv hc.ok hm
  obtain ⟨rest, rfl, hvl, -⟩ := valid_cases hl hv
  have := isValidSizeClass_true ((validLoop_true rest _ hvl).1 e h2.1).2.2
  have hpg : p.align ∣ cfg.pageSize := by
    obtain ⟨k, hk⟩ := hp.pow2
    have hle : p.align ≤ cfg.pageSize := by omega
    unfold Cfg.pageSize at hle ⊢
    rw [hk] at hle ⊢
    exact Nat.pow_dvd_pow 2 ((Nat.pow_le_pow_iff_right (by omega)).1 hle)
  constructor
  · exact Nat.dvd_add (Nat.dvd_mul_left_of_dvd hpg _) (Nat.dvd_mul_left_of_dvd h2.2.2.1 _)
  · exact Nat.dvd_add (Nat.dvd_mul_left_of_dvd hc.ok.page8 _)
      (Nat.dvd_mul_left_of_dvd (Nat.dvd_of_mod_eq_zero this.2.2.1) _)

/-- **C06.**  Any size between the requested one and the block size - in particular the size
reported back by `nallocx`/size-returning new - maps to the very same class, so a sized free
through it frees to the list the block came from.  (`size = 0` with a cold hint is the one case
where the group of the request differs: see `groupStart`.) -/
theorem sized_free_same_class (cfg : Cfg) (hc : cfg.Shipped) (t : List Info) (leftover : Nat)
    (m : Maps) (hm : init cfg t leftover = .ok m) (p : Policy) (hp : p.Valid cfg)
    (size c bytes : Nat) (h : getSizeClass cfg m p size = some (.small c))
    (hb : m.classToSize[c]? = some bytes) (size' : Nat) (h1 : size ≤ size') (h2 : size' ≤ bytes)
    (hgrp : groupStart cfg p size = groupStart cfg p size') :
    getSizeClass cfg m p size' = some (.small c) := by
  have hnl : ¬ (cfg.maxSize < size ∨ cfg.pageSize < p.align) := by
    intro hn; rw [(large_iff cfg hc t leftover m hm p hp size).2 hn] at h; simp at h
  obtain ⟨by', hb', -, hmax, -⟩ := class_at_least_requested cfg hc t leftover m hm p hp size c h
  rw [hb] at hb'; simp at hb'; subst hb'
  obtain ⟨hl, hv, mo⟩ := init_inv hc.ok hm
  have hbig := hc.ok.big
  have g := goodSizes_of_valid (by omega) hl hv
  have hts : ∀ (d : Nat) (e : Info), t[d]? = some e → (t.map (·.size))[d]? = some e.size := by
    intro d e he; rw [List.getElem?_map, he]; rfl
  obtain ⟨b, d, e, a1, a2, a3, a4, a5, a6, a7, a8⟩ :=
    getSizeClass_small hc.ok hl hv mo hp (by omega) (show size ≤ cfg.maxSize by omega)
  obtain ⟨b', d', e', b1, b2, b3, b4, b5, b6, b7, b8⟩ :=
    getSizeClass_small hc.ok hl hv mo hp (by omega) (show size' ≤ cfg.maxSize by omega)
  rw [a1] at h; simp at h; subst h
  have hsz : m.classToSize[b * cfg.numBase + d]? = some e.size := by
    have hcl := (List.getElem?_eq_some_iff.1 a5).1
    rw [mo.sz, setRegister_get _ (by simpa using hl) a3 (by simpa using hcl), List.getElem?_map, a5]
    rfl
  rw [hb] at hsz; simp at hsz; subst hsz
  have : d = d' := by
    apply Classical.byContradiction
    intro hne
    rcases Nat.lt_or_gt_of_ne hne with hlt | hlt
    · exact b8 d e a4 hlt a5 ⟨h2, a7⟩
    · exact a8 d' e' b4 hlt b5 ⟨by omega, b7⟩
  subst this
  rw [b1]
  simp
  omega

/-- **C36 (class groups).** Requests from different security partitions never share a class when
heap partitioning is fully on: a block freed by one partition cannot be handed to the other. -/
theorem partitions_never_share_class (cfg : Cfg) (hc : cfg.Shipped) (t : List Info)
    (leftover : Nat) (m : Maps) (hm : init cfg t leftover = .ok m)
    (hact : cfg.partActive = true) (hfull : cfg.modeFull = true)
    (p q : Policy) (hp : p.Valid cfg) (hq : q.Valid cfg) (hne : p.secPart ≠ q.secPart)
    (s1 s2 c1 c2 : Nat) (h1 : getSizeClass cfg m p s1 = some (.small c1))
    (h2 : getSizeClass cfg m q s2 = some (.small c2)) : c1 ≠ c2 := by
  have key : ∀ (p : Policy) (s c : Nat), p.Valid cfg → getSizeClass cfg m p s = some (.small c) →
      groupStart cfg p s < c ∧ c < groupStart cfg p s + cfg.numBase := by
    intro p s c hp h
    have hnl : ¬ (cfg.maxSize < s ∨ cfg.pageSize < p.align) := by
      intro hn; rw [(large_iff cfg hc t leftover m hm p hp s).2 hn] at h; simp at h
    obtain ⟨c', e, k1, -, -, -, -, k2, k3, -⟩ :=
      class_is_tightest cfg hc t leftover m hm p hp s (by omega) (by omega)
    rw [k1] at h; simp at h; omega
  have hp1 := hp.sec
  have hq1 := hq.sec
  have hsec : cfg.secParts = 2 := by rcases hc.ok.sec with h | h <;> omega
  have hnuma : cfg.numaParts = 1 := by rcases hc.ok.excl with h | h <;> omega
  have hpn : p.numaPart = 0 := by have := hp.numa; omega
  have hqn : q.numaPart = 0 := by have := hq.numa; omega
  have hnp : cfg.normalParts = 2 := by unfold Cfg.normalParts; rw [hsec, hnuma]
  have hexp : cfg.expandedStart = 2 * cfg.numBase := by
    unfold Cfg.expandedStart; rw [hnp, Nat.mul_comm]
  have k1 := key p s1 c1 hp h1
  have k2 := key q s2 c2 hq h2
  have hpart : ∀ (p : Policy) (s : Nat), p.numaPart = 0 →
      (p.secPart = 1 → groupStart cfg p s = cfg.numBase) ∧
      (p.secPart = 0 → groupStart cfg p s = 0 ∨ groupStart cfg p s = 2 * cfg.numBase) := by
    intro p s h0
    constructor
    · intro h; simp [groupStart, hotStart, h, hact, hfull, hsec, h0]
    · intro h
      simp only [groupStart, hotStart, h, hact, hfull, hsec, h0, hexp]
      split
      · simp; omega
      · simp
  have hcases : (p.secPart = 0 ∧ q.secPart = 1) ∨ (p.secPart = 1 ∧ q.secPart = 0) := by omega
  rcases hcases with ⟨ha, hb⟩ | ⟨ha, hb⟩
  · have e1 := (hpart p s1 hpn).2 ha
    have e2 := (hpart q s2 hqn).1 hb
    rcases e1 with e1 | e1 <;> omega
  · have e1 := (hpart p s1 hpn).1 ha
    have e2 := (hpart q s2 hqn).2 hb
    rcases e2 with e2 | e2 <;> omega

/-! ### C05: the shipped tables -/

/-- The shipped configuration with the given page shift. -/
def cfgOf (shift numaParts secParts bitmapSize : Nat) (act full : Bool) : Option Cfg :=
  (baseConfigs.find? (·.1 == shift)).map fun (s, n, x, mx) =>
    ⟨s, n, x, mx, numaParts, secParts, bitmapSize, act, full⟩

/-- **C05.**  Each of the 32 shipped tables is accepted by `ValidSizeClasses` for its page size
and fits in `kNumBaseClasses`, whatever bitmap size and partitioning the build uses. -/
theorem shipped_tables_valid (cfg : Cfg) (hc : cfg.Shipped) (t : List Info)
    (ht : (cfg.pageShift, t) ∈ shippedTables) :
    validSizeClasses cfg t = true ∧ t.length ≤ cfg.numBase := by
  have hall : ∀ bm ∈ [128, 192], ∀ x ∈ shippedTables, ∀ b ∈ baseConfigs, b.1 = x.1 →
      validSizeClasses ⟨b.1, b.2.1, b.2.2.1, b.2.2.2, 1, 1, bm, false, false⟩ x.2 = true ∧
        x.2.length ≤ b.2.1 := by decide +kernel
  obtain ⟨hb, hp, hbm⟩ := hc
  have := hall cfg.bitmapSize hbm (cfg.pageShift, t) ht _ hb rfl
  refine ⟨?_, this.2⟩
  have h1 := this.1
  -- validity depends only on the base part of the configuration
  have hv : ∀ (p : Info) (l : List Info),
      validLoop ⟨cfg.pageShift, cfg.numBase, cfg.hasExpanded, cfg.maxSize, 1, 1, cfg.bitmapSize,
        false, false⟩ p l = validLoop cfg p l := by
    intro p l
    induction l generalizing p with
    | nil => rfl
    | cons e l ih => rw [validLoop, validLoop, ih]; rfl
  unfold validSizeClasses at h1 ⊢
  simp only [hv] at h1
  exact h1

/-- **C05 (what acceptance buys).**  Every class of an accepted table: block size a positive
multiple of 8, strictly increasing, span length 1..32 whole pages that holds at least one block,
batch size 2..128; a span that uses the bitmap never holds more blocks than the bitmap has bits,
and any other span is one page. -/
theorem accepted_table_wellformed (cfg : Cfg) (hc : cfg.Shipped) (t : List Info) (leftover : Nat)
    (m : Maps) (hm : init cfg t leftover = .ok m) :
    t.Pairwise (fun a b => a.size < b.size) ∧
    (∃ e ∈ t, e.size = cfg.maxSize) ∧
    ∀ e ∈ t.tail, 0 < e.size ∧ e.size ≤ cfg.maxSize ∧ 8 ∣ e.size ∧
      (∃ pages, 1 ≤ pages ∧ pages ≤ 32 ∧ e.bytes = pages * cfg.pageSize ∧ e.size ≤ e.bytes ∧
        (e.size < cfg.pageSize / cfg.bitmapSize → pages = 1) ∧
        (cfg.pageSize / cfg.bitmapSize ≤ e.size → e.bytes / e.size ≤ cfg.bitmapSize)) ∧
      2 ≤ e.numToMove ∧ e.numToMove ≤ 128 := by
  obtain ⟨hl, hv, mo⟩ := init_inv hc.ok hm
  obtain ⟨rest, rfl, hvl, hlast⟩ := valid_cases hl hv
  obtain ⟨hall, hpw⟩ := validLoop_true rest _ hvl
  refine ⟨List.pairwise_cons.2 ⟨fun e he => (hall e he).1, hpw⟩, ?_, ?_⟩
  · rw [List.getElem?_map] at hlast
    obtain ⟨a, ha, hx⟩ := Option.map_eq_some_iff.1 hlast
    exact ⟨a, List.mem_of_getElem? ha, hx⟩
  · intro e he
    obtain ⟨h1, h2, h3⟩ := hall e he
    obtain ⟨v1, v2, v3, v4, v5, v6, v7, v8, v9, v10, v11⟩ := isValidSizeClass_true h3
    rw [h2] at v7
    have hby : e.bytes = bytesToLengthFloor cfg e.bytes * cfg.pageSize := by
      unfold Cfg.pageSize; rw [← Nat.shiftLeft_eq]; exact h2.symm
    refine ⟨v1, v2, Nat.dvd_of_mod_eq_zero v3, ⟨_, v5, v6, hby, ?_, ?_, ?_⟩, v10, v11⟩
    · have := Nat.div_mul_le_self e.bytes e.size
      have h4 : 1 * e.size ≤ e.bytes / e.size * e.size := Nat.mul_le_mul_right _ v7
      omega
    · intro hlt
      unfold spanIsValidSizeClass useBitmapForSize at v8
      rw [if_neg (by omega)] at v8
      simpa [Nat.not_le.2 hlt] using v8
    · intro hge
      unfold spanIsValidSizeClass useBitmapForSize at v8
      rw [if_neg (by omega)] at v8
      simpa [hge, h2] using v8

/-! ### Non-vacuity: a concrete shipped configuration and requests -/

/-- 8 KiB pages, two security partitions, heap partitioning fully on. -/
def exCfg : Cfg := ⟨13, 86, true, 262144, 1, 2, 192, true, true⟩

theorem exCfg_shipped : exCfg.Shipped := ⟨by decide, by decide, by decide⟩

example : ∃ m, init exCfg reuse_a16_p13 0 = .ok m := by
  have h := shipped_tables_valid exCfg exCfg_shipped reuse_a16_p13 (by decide +kernel)
  exact (init_succeeds_iff exCfg exCfg_shipped _ h.2 0).2 h.1

/-- A 100-byte request aligned to 64 in partition 1: the model really computes a class. -/
example : (⟨64, false, true, 1, 0, false⟩ : Policy).Valid exCfg := ⟨⟨6, rfl⟩, by decide, by decide⟩

/-- A request of 1000 bytes gets a strictly larger block in this table (rounding is real). -/
example : ∃ e, BestClass reuse_a16_p13 1000 1 e ∧ 1000 < e.size := by
  refine ⟨⟨1024, 8192, 32⟩, ?_, by decide⟩
  unfold BestClass; decide +kernel

end Verif.SizeMap
