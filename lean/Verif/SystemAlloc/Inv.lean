import Verif.SystemAlloc.Lemmas
/-! The invariant of the system allocator. -/
namespace Verif.SystemAlloc
open Verif.MemoryTag

def Within (p m : Nat × Nat) : Prop := m.1 ≤ p.1 ∧ p.1 + p.2 ≤ m.1 + m.2

theorem Disj.within {p m q : Nat × Nat} (h : Disj m q) (hw : Within p m) : Disj p q := by
  intro x hx
  have := hw.1
  have := hw.2
  exact h x ⟨⟨by omega, by omega⟩, hx.2⟩

theorem Tagged.within {t : Tag} {p m : Nat × Nat} (h : Tagged t m) (hw : Within p m) : Tagged t p := by
  intro x h1 h2
  have := hw.1
  have := hw.2
  exact h x (by omega) (by omega)

theorem Tagged.disj {s t : Tag} {p q : Nat × Nat} (h1 : Tagged s p) (h2 : Tagged t q) (hne : s ≠ t) : Disj p q := by
  intro x hx
  apply hne
  apply tag_val_inj
  rw [← h1 x hx.1.1 hx.1.2, h2 x hx.2.1 hx.2.2]

structure RegOK (c : Cfg) (w : W) (t : Tag) (r : Region) : Prop where
  mem : (r.start, r.size) ∈ w.mapped
  size : r.size = c.minMmap
  good : Good t c.minMmap r.start r.size
  free : r.custom = false → r.free ≤ r.size ∧ r.free % c.huge = 0 ∧ ∀ g ∈ w.given, Disj (r.start, r.free) g

structure Inv (c : Cfg) (w : W) : Prop where
  next : ∀ t, w.next t < 2 ^ 47
  mdisj : w.mapped.Pairwise Disj
  gdisj : w.given.Pairwise Disj
  gin : ∀ g ∈ w.given, ∃ m ∈ w.mapped, Within g m
  reg : ∀ t r, w.region t = some r → RegOK c w t r

theorem inv_init (c : Cfg) : Inv c W.init :=
  ⟨fun _ => by show (0 : Nat) < _; decide, .nil, .nil, fun _ h => absurd h List.not_mem_nil, fun _ _ h => by cases h⟩

theorem Inv.push {c : Cfg} {w : W} {p : Nat × Nat} (h : Inv c w) (hd : ∀ g ∈ w.given, Disj p g) (hm : ∃ m ∈ w.mapped, Within p m)
    (hf : ∀ t r, w.region t = some r → r.custom = false → Disj (r.start, r.free) p) :
    Inv c { w with given := p :: w.given } := by
  refine ⟨h.next, h.mdisj, List.pairwise_cons.2 ⟨hd, h.gdisj⟩, ?_, ?_⟩
  · intro g hg
    rcases List.mem_cons.1 hg with rfl | hg
    · exact hm
    · exact h.gin g hg
  · intro t r hr
    have := h.reg t r hr
    refine ⟨this.mem, this.size, this.good, fun hc => ⟨(this.free hc).1, (this.free hc).2.1, ?_⟩⟩
    intro g hg
    rcases List.mem_cons.1 hg with rfl | hg
    · exact hf t r hr hc
    · exact (this.free hc).2.2 g hg

/-- A new mapping. -/
theorem Inv.map {c : Cfg} {w : W} {t0 : Tag} {n : Nat} {res : Option Nat} {size : Nat} (h : Inv c w) (hn : n < 2 ^ 47)
    (hd : ∀ p, res = some p → ∀ m ∈ w.mapped, Disj (p, size) m) :
    Inv c (w.mapTo t0 n size res) := by
  have hsub : ∀ m ∈ w.mapped, m ∈ (w.mapTo t0 n size res).mapped := by
    intro m hm
    exact List.mem_append_right _ hm
  refine ⟨?_, ?_, h.gdisj, ?_, ?_⟩
  · intro t
    show (if t = t0 then n else w.next t) < _
    split
    · exact hn
    · exact h.next t
  · cases res with
    | none => exact h.mdisj
    | some p => exact List.pairwise_cons.2 ⟨hd p rfl, h.mdisj⟩
  · intro g hg
    obtain ⟨m, hm, hw⟩ := h.gin g hg
    exact ⟨m, hsub m hm, hw⟩
  · intro t r hr
    have := h.reg t r hr
    exact ⟨hsub _ this.mem, this.size, this.good, this.free⟩

/-- Setting or dropping a region. -/
theorem Inv.set {c : Cfg} {w : W} {t0 : Tag} {r0 : Option Region} (h : Inv c w) (hr0 : ∀ r, r0 = some r → RegOK c w t0 r) :
    Inv c (w.setRegion t0 r0) := by
  refine ⟨h.next, h.mdisj, h.gdisj, h.gin, ?_⟩
  intro t r hr
  unfold W.setRegion at hr
  dsimp only at hr
  split at hr
  · rename_i ht
    subst ht
    have := hr0 r hr
    exact ⟨this.mem, this.size, this.good, this.free⟩
  · have := h.reg t r hr
    exact ⟨this.mem, this.size, this.good, this.free⟩

theorem roundUp_spec {n b : Nat} (hb : b ≤ 42) (hn : n ≤ 2 ^ 42) :
    n ≤ roundUp n (2 ^ b) ∧ roundUp n (2 ^ b) % 2 ^ b = 0 ∧ roundUp n (2 ^ b) ≤ 2 ^ 42 := by
  have hpos : 0 < 2 ^ b := Nat.pow_pos (by omega)
  have hle : 2 ^ b ≤ 2 ^ 42 := Nat.pow_le_pow_right (by omega) hb
  unfold roundUp
  rw [Nat.mod_eq_of_lt (show n + 2 ^ b - 1 < 2 ^ 64 by omega)]
  have hd := Nat.div_add_mod (n + 2 ^ b - 1) (2 ^ b)
  have hm := Nat.mod_lt (n + 2 ^ b - 1) hpos
  have e : n + 2 ^ b - 1 - (n + 2 ^ b - 1) % 2 ^ b = 2 ^ b * ((n + 2 ^ b - 1) / 2 ^ b) := by omega
  refine ⟨by omega, ?_, ?_⟩
  · rw [e]; exact Nat.mul_mod_right _ _
  · rw [e]
    have e2 : (2 : Nat) ^ 42 = 2 ^ b * 2 ^ (42 - b) := by rw [← Nat.pow_add]; congr 1; omega
    rw [e2]
    apply Nat.mul_le_mul_left
    rw [Nat.div_le_iff_le_mul hpos]
    rw [Nat.mul_comm, ← e2]; omega

/-- A number rounded down. -/
theorem down_spec {n j : Nat} : (n - n % 2 ^ j) % 2 ^ j = 0 ∧ n - n % 2 ^ j ≤ n := by
  have hd := Nat.div_add_mod n (2 ^ j)
  have e : n - n % 2 ^ j = 2 ^ j * (n / 2 ^ j) := by omega
  exact ⟨by rw [e]; exact Nat.mul_mod_right _ _, by omega⟩

theorem mod_of_le {n i j : Nat} (h : i ≤ j) (hn : n % 2 ^ j = 0) : n % 2 ^ i = 0 :=
  Nat.mod_eq_zero_of_dvd (Nat.dvd_trans (Nat.pow_dvd_pow 2 h) (Nat.dvd_of_mod_eq_zero hn))

theorem max_pow (i j : Nat) : max (2 ^ i) (2 ^ j) = 2 ^ max i j := by
  by_cases h : i ≤ j
  · have := Nat.pow_le_pow_right (n := 2) (by omega) h
    rw [Nat.max_eq_right this, Nat.max_eq_right h]
  · have h' : j ≤ i := by omega
    have := Nat.pow_le_pow_right (n := 2) (by omega) h'
    rw [Nat.max_eq_left this, Nat.max_eq_left h']

/-- What is known about an answer. -/
structure Ans (c : Cfg) (w : W) (t : Tag) (bytes al : Nat) (p : Nat × Nat) : Prop where
  size : bytes ≤ p.2
  aligned : p.1 % al = 0
  pos : 0 < p.1
  tagged : Tagged t p
  top : p.1 + p.2 < 2 ^ 47
  fresh : ∀ g ∈ w.given, Disj p g
  huge : w.custom = false → (∀ r, w.region t = some r → r.custom = false) → p.1 % c.huge = 0 ∧ p.2 % c.huge = 0

theorem alloc_spec {c : Cfg} {w : W} {t : Tag} {r : Region} {request i : Nat} {prot : Bool} (hc : c.OK)
    (hr : RegOK c w t r) (hcu : r.custom = false) (hq : request ≤ 2 ^ 42) :
    ∃ r' res, r.alloc c request (2 ^ i) prot = some (r', res) ∧
      r'.start = r.start ∧ r'.size = r.size ∧ r'.custom = r.custom ∧ RegOK c w t r' ∧
      (res = none → r' = r) ∧
      (∀ p, res = some p → request ≤ p.2 ∧ p.1 % 2 ^ i = 0 ∧ p.1 % c.huge = 0 ∧ p.2 % c.huge = 0 ∧
        r.start ≤ p.1 ∧ p.1 + p.2 = r.start + r.free ∧ p.1 = r.start + r'.free) := by
  have hsame : ∃ r' res, some (r, (none : Option (Nat × Nat))) = some (r', res) ∧
      r'.start = r.start ∧ r'.size = r.size ∧ r'.custom = r.custom ∧ RegOK c w t r' ∧ (res = none → r' = r) ∧
      (∀ p, res = some p → request ≤ p.2 ∧ p.1 % 2 ^ i = 0 ∧ p.1 % c.huge = 0 ∧ p.2 % c.huge = 0 ∧
        r.start ≤ p.1 ∧ p.1 + p.2 = r.start + r.free ∧ p.1 = r.start + r'.free) :=
    ⟨r, none, rfl, rfl, rfl, rfl, hr, fun _ => rfl, fun p h => by cases h⟩
  obtain ⟨hf1, hf2, hf3⟩ := hr.free hcu
  have hst : r.start % c.huge = 0 := mod_of_le hc.huge (by have := hr.good.aligned; exact this)
  have hend : (r.start + r.free) % c.huge = 0 := by
    rw [Nat.add_mod, hst, hf2]; exact Nat.mod_eq_zero_of_dvd (Nat.dvd_zero _)
  obtain ⟨s1, s2, s3⟩ := roundUp_spec (n := request) (b := c.hugeBits) (by have := hc.huge; have := hc.mmap; omega) hq
  unfold Region.alloc
  dsimp only
  split
  · exact hsame
  · split
    · exact hsame
    · rename_i he
      have hmx : max (2 ^ i) c.huge = 2 ^ max i c.hugeBits := max_pow _ _
      rw [hmx]
      obtain ⟨d1, d2⟩ := down_spec (n := r.start + r.free - roundUp request c.huge) (j := max i c.hugeBits)
      generalize hres : r.start + r.free - roundUp request c.huge - (r.start + r.free - roundUp request c.huge) % 2 ^ max i c.hugeBits = result at d1 d2 ⊢
      have hrh : result % c.huge = 0 := mod_of_le (Nat.le_max_right _ _) d1
      split
      · exact hsame
      · rename_i hlt
        rw [if_neg (by rw [Decidable.not_not]; exact mod_of_le hc.page hrh)]
        split
        · exact hsame
        · change request ≤ roundUp request c.huge at s1
          rw [if_neg (by omega)]
          have hfree : r.free - (r.start + r.free - result) = result - r.start := by omega
          refine ⟨_, _, rfl, rfl, rfl, rfl, ?_, (fun h => by cases h), ?_⟩
          · refine ⟨hr.mem, hr.size, hr.good, fun _ => ⟨?_, ?_, ?_⟩⟩
            · dsimp only; omega
            · dsimp only
              rw [hfree]
              have h1 := Nat.dvd_of_mod_eq_zero hrh
              have h2 := Nat.dvd_of_mod_eq_zero hst
              exact Nat.mod_eq_zero_of_dvd (Nat.dvd_sub h1 h2)
            · intro g hg
              exact (hf3 g hg).within ⟨Nat.le_refl _, by dsimp only; omega⟩
          · intro p hp
            cases hp
            refine ⟨?_, mod_of_le (Nat.le_max_left _ _) d1, hrh, ?_, by omega, ?_, ?_⟩
            · dsimp only; omega
            · have h1 := Nat.dvd_of_mod_eq_zero hrh
              have h2 := Nat.dvd_of_mod_eq_zero hend
              exact Nat.mod_eq_zero_of_dvd (Nat.dvd_sub h2 h1)
            · dsimp only; omega
            · dsimp only; omega

/-- The outcome of `AllocateFromRegion` and its parts. -/
structure Outcome (c : Cfg) (w w' : W) (t : Tag) (bytes al : Nat) (res : Option (Nat × Nat)) : Prop where
  inv : Inv c w'
  given : w'.given = w.given
  ans : ∀ p, res = some p → Ans c w t bytes al p ∧ (∃ m ∈ w'.mapped, Within p m) ∧
    ∀ t' r, w'.region t' = some r → r.custom = false → Disj (r.start, r.free) p

theorem large_outcome {c : Cfg} {w : W} {t : Tag} {bytes i : Nat} {o : Oracle} (hc : c.OK) (hI : Inv c w) (hb : 0 < bytes)
    (hq : bytes ≤ 2 ^ 42) (hi : i ≤ 42) (hsup : c.supports t = true)
    (hE : EnvOK c w (roundUp bytes c.huge) (max (2 ^ i) c.huge) t o)
    (hcu : w.custom = true → ∀ w1 ptr, mmapLocked c w (roundUp bytes c.huge) (max (2 ^ i) c.huge) t o = some (w1, some ptr) →
      CustOK w.given ptr (roundUp bytes c.huge) (roundUp bytes c.huge) (max (2 ^ i) c.huge) o.cust1) :
    ∃ w' res, allocLarge c w bytes (2 ^ i) t o = some (w', res) ∧ Outcome c w w' t bytes (2 ^ i) res := by
  obtain ⟨s1, s2, s3⟩ := roundUp_spec (n := bytes) (b := c.hugeBits) (by have := hc.huge; have := hc.mmap; omega) hq
  change bytes ≤ roundUp bytes c.huge at s1
  change roundUp bytes c.huge % c.huge = 0 at s2
  change roundUp bytes c.huge ≤ 2 ^ 42 at s3
  have hmx : max (2 ^ i) c.huge = 2 ^ max i c.hugeBits := max_pow _ _
  have hh42 : max i c.hugeBits ≤ 42 := by have := hc.huge; have := hc.mmap; omega
  unfold allocLarge
  dsimp only
  rw [if_neg (by omega)]
  rw [hmx] at hE hcu ⊢
  generalize hS : roundUp bytes c.huge = S at *
  obtain ⟨n, res, h1, h2, h3⟩ := mmapLocked_spec (by omega) s3 hh42 hsup (hI.next t) hE
  rw [h1]
  have hI1 := hI.map (t0 := t) (size := S) (res := res) h2 (fun p hp => (h3 p hp).2)
  cases res with
  | none => exact ⟨_, none, rfl, hI1, rfl, fun p h => by cases h⟩
  | some ptr =>
    obtain ⟨g, hd⟩ := h3 ptr rfl
    dsimp only
    by_cases hcr : o.create = true
    · rw [hcr]
      rw [if_neg (by decide)]
      -- the answer of the region
      have key : ∃ r' res, (Region.mk ptr S S w.custom).allocAny c S (2 ^ max i c.hugeBits) o.prot1 o.cust1 = some (r', res) ∧
          (res = none ∨ res = some (ptr, S)) := by
        unfold Region.allocAny
        by_cases hw : w.custom = true
        · rw [if_pos hw]
          refine ⟨_, _, rfl, ?_⟩
          cases hx : o.cust1 with
          | none => exact .inl rfl
          | some v =>
            obtain ⟨p, m⟩ := v
            obtain ⟨a1, a2, a3, a4, a5⟩ := hcu hw _ _ h1 p m hx
            right
            congr 2 <;> omega
        · rw [if_neg hw]
          unfold Region.alloc
          dsimp only
          have hround : roundUp S c.huge = S := by
            have r1 := roundUp_spec (n := S) (b := c.hugeBits) (by have := hc.huge; have := hc.mmap; omega) s3
            unfold roundUp at r1 ⊢
            have hpos : 0 < c.huge := Nat.pow_pos (by omega)
            change 0 < 2 ^ c.hugeBits at hpos
            have hle : 2 ^ c.hugeBits ≤ 2 ^ 42 := Nat.pow_le_pow_right (by omega) (by have := hc.huge; have := hc.mmap; omega)
            change S % 2 ^ c.hugeBits = 0 at s2
            show (S + 2 ^ c.hugeBits - 1) % 2 ^ 64 - (S + 2 ^ c.hugeBits - 1) % 2 ^ 64 % 2 ^ c.hugeBits = S
            rw [Nat.mod_eq_of_lt (show S + 2 ^ c.hugeBits - 1 < 2 ^ 64 by omega)]
            have e : S + 2 ^ c.hugeBits - 1 = S + (2 ^ c.hugeBits - 1) := by omega
            rw [e, Nat.add_mod, s2, Nat.zero_add, Nat.mod_mod, Nat.mod_eq_of_lt (by omega)]
            omega
          rw [hround, if_neg (by omega), if_neg (by omega)]
          have hmx2 : max (2 ^ max i c.hugeBits) c.huge = 2 ^ max i c.hugeBits := by
            show max (2 ^ max i c.hugeBits) (2 ^ c.hugeBits) = _
            rw [max_pow]; congr 1; omega
          have hsub : ptr + S - S = ptr := by omega
          have ha : ptr % 2 ^ max i c.hugeBits = 0 := g.aligned
          rw [hmx2, hsub, ha, Nat.sub_zero, if_neg (by omega)]
          rw [if_neg (by rw [Decidable.not_not]; exact mod_of_le (Nat.le_trans hc.page (Nat.le_max_right _ _)) ha)]
          split
          · exact ⟨_, _, rfl, .inl rfl⟩
          · rw [if_neg (by omega)]
            refine ⟨_, _, rfl, .inr ?_⟩
            congr 2
            omega
      obtain ⟨r', res, k1, k2⟩ := key
      rw [k1]
      rcases k2 with rfl | rfl
      · exact ⟨_, none, rfl, hI1, rfl, fun p h => by cases h⟩
      · dsimp only
        rw [if_pos rfl]
        refine ⟨_, _, rfl, hI1, rfl, ?_⟩
        intro p hp
        cases hp
        have ha := g.aligned
        refine ⟨⟨s1, mod_of_le (Nat.le_max_left _ _) ha, g.pos, g.tagged, g.top, ?_, fun _ _ => ⟨mod_of_le (Nat.le_max_right _ _) ha, s2⟩⟩,
          ⟨(ptr, S), List.mem_cons_self .., ⟨Nat.le_refl _, Nat.le_refl _⟩⟩, ?_⟩
        · intro x hx
          obtain ⟨m, hm, hwm⟩ := hI.gin x hx
          exact ((hd m hm).symm.within hwm).symm
        · intro t' r hr hcf
          have hro := hI.reg t' r hr
          have := hd _ hro.mem
          exact this.symm.within ⟨Nat.le_refl _, by have := (hro.free hcf).1; dsimp only; omega⟩
    · have hcr' : o.create = false := by simpa using hcr
      rw [hcr']
      refine ⟨(w.mapTo t n S (some ptr)).unmap ptr S, none, by simp, ?_, rfl, fun p h => by cases h⟩
      have := hI.map (t0 := t) (res := none) (size := S) h2 (fun p h => by cases h)
      have e : (w.mapTo t n S (some ptr)).unmap ptr S = w.mapTo t n S none := by
        unfold W.unmap W.mapTo
        show W.mk _ _ _ (((ptr, S) :: w.mapped).erase (ptr, S)) _ = _
        rw [List.erase_cons_head]
        rfl
      rw [e]
      exact this

theorem fresh_outcome {c : Cfg} {w : W} {t : Tag} {bytes i : Nat} {o : Oracle} (hc : c.OK) (hI : Inv c w)
    (hq : bytes ≤ 2 ^ 42) (hsup : c.supports t = true)
    (hE : EnvOK c w c.minMmap c.minMmap t o)
    (hcu : w.custom = true → ∀ w1 ptr, mmapLocked c w c.minMmap c.minMmap t o = some (w1, some ptr) →
      CustOK w.given ptr c.minMmap bytes (2 ^ i) o.cust2) :
    ∃ w' res, allocFresh c w bytes (2 ^ i) t o = some (w', res) ∧ Outcome c w w' t bytes (2 ^ i) res := by
  unfold allocFresh
  have hpos : 0 < c.minMmap := Nat.pow_pos (by omega)
  have hle : c.minMmap ≤ 2 ^ 42 := Nat.pow_le_pow_right (by omega) hc.mmap
  obtain ⟨n, res, h1, h2, h3⟩ := mmapLocked_spec (a := c.mmapBits) hpos hle hc.mmap hsup (hI.next t) hE
  have h1' : mmapLocked c w c.minMmap c.minMmap t o = _ := h1
  rw [h1']
  have hI1 := hI.map (t0 := t) (size := c.minMmap) (res := res) h2 (fun p hp => (h3 p hp).2)
  cases res with
  | none => exact ⟨_, none, rfl, hI1, rfl, fun p h => by cases h⟩
  | some ptr =>
    obtain ⟨g, hd⟩ := h3 ptr rfl
    have hgd : ∀ x ∈ w.given, Disj (ptr, c.minMmap) x := by
      intro x hx
      obtain ⟨m, hm, hwm⟩ := hI.gin x hx
      exact ((hd m hm).symm.within hwm).symm
    dsimp only
    by_cases hcr : o.create = true
    · rw [hcr]
      rw [if_neg (by decide)]
      have hro : RegOK c (w.mapTo t n c.minMmap (some ptr)) t
          ⟨ptr, c.minMmap, c.minMmap, w.custom⟩ := by
        refine ⟨List.mem_cons_self .., rfl, g, fun _ => ⟨Nat.le_refl _, ?_, hgd⟩⟩
        exact mod_of_le hc.huge (by exact Nat.mod_self _)
      have hother : ∀ (r : Region) (p : Nat × Nat), Within p (ptr, c.minMmap) → ∀ t' r', t' ≠ t → w.region t' = some r' →
          r'.custom = false → Disj (r'.start, r'.free) p := by
        intro r p hp t' r' hne hr' hcf
        have hr2 := hI.reg t' r' hr'
        refine Tagged.disj (s := t') (t := t) ?_ (g.tagged.within hp) hne
        exact hr2.good.tagged.within ⟨Nat.le_refl _, by have := (hr2.free hcf).1; dsimp only; omega⟩
      unfold Region.allocAny
      by_cases hw : w.custom = true
      · rw [if_pos hw]
        refine ⟨_, _, rfl, hI1.set (fun r h => by cases h; exact hro), rfl, ?_⟩
        intro p hp
        obtain ⟨a1, a2, a3, a4, a5⟩ := hcu hw _ _ h1' p.1 p.2 hp
        have hwi : Within p (ptr, c.minMmap) := ⟨a3, a4⟩
        refine ⟨⟨a1, a2, by have := g.pos; omega, g.tagged.within hwi, by have := g.top; omega, a5, fun h => by rw [hw] at h; cases h⟩,
          ⟨_, List.mem_cons_self .., hwi⟩, ?_⟩
        intro t' r' hr' hcf
        unfold W.setRegion at hr'
        dsimp only at hr'
        split at hr'
        · cases hr'; dsimp only at hcf; rw [hw] at hcf; cases hcf
        · exact hother ⟨ptr, c.minMmap, c.minMmap, w.custom⟩ p hwi t' r' (by assumption) hr' hcf
      · have hw' : w.custom = false := by simpa using hw
        rw [if_neg hw]
        obtain ⟨r', res, k1, k2, k3, k4, k5, k6, k7⟩ := alloc_spec (i := i) (prot := o.prot2) hc hro hw' hq
        rw [k1]
        refine ⟨_, _, rfl, hI1.set (fun r h => by cases h; exact k5), rfl, ?_⟩
        intro p hp
        obtain ⟨b1, b2, b3, b4, b5, b6, b7⟩ := k7 p hp
        dsimp only at b5 b6 b7 k2
        have hwi : Within p (ptr, c.minMmap) := ⟨b5, by dsimp only; omega⟩
        refine ⟨⟨b1, b2, by have := g.pos; omega, g.tagged.within hwi, by have := g.top; omega, fun x hx => (hgd x hx).within hwi, fun _ _ => ⟨b3, b4⟩⟩,
          ⟨_, List.mem_cons_self .., hwi⟩, ?_⟩
        intro t' r1 hr1 hcf
        unfold W.setRegion at hr1
        dsimp only at hr1
        split at hr1
        · cases hr1
          intro x hx
          dsimp only at hx
          rw [k2] at hx
          omega
        · exact hother ⟨ptr, c.minMmap, c.minMmap, w.custom⟩ p hwi t' r1 (by assumption) hr1 hcf
    · have hcr' : o.create = false := by simpa using hcr
      rw [hcr']
      refine ⟨((w.mapTo t n c.minMmap (some ptr)).setRegion t none).unmap ptr c.minMmap, none, by simp, ?_, rfl, fun p h => by cases h⟩
      have := (hI.map (t0 := t) (res := none) (size := c.minMmap) h2 (fun p h => by cases h)).set (t0 := t) (r0 := none) (fun r h => by cases h)
      have e : ((w.mapTo t n c.minMmap (some ptr)).setRegion t none).unmap ptr c.minMmap = (w.mapTo t n c.minMmap none).setRegion t none := by
        unfold W.unmap W.mapTo W.setRegion
        show W.mk _ _ _ (((ptr, c.minMmap) :: w.mapped).erase (ptr, c.minMmap)) _ = _
        rw [List.erase_cons_head]
        rfl
      rw [e]
      exact this

end Verif.SystemAlloc
