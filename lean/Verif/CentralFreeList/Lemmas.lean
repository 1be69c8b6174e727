import Verif.CentralFreeList.Spec
import Verif.Span.Frame
import Verif.HintedLists.Props
/-! Bookkeeping lemmas: the index lists and the histogram as functions of the per-span counts. -/
namespace Verif.CentralFreeList
open Verif.Span (Geo Mem IsObj InObj)
open Verif.HintedLists (HL)

theorem upd_same {α : Type} (f : Nat → α) (p : Nat) (v : α) : upd f p v p = v := by simp [upd]
theorem upd_ne {α : Type} (f : Nat → α) {p q : Nat} (v : α) (h : q ≠ p) : upd f p v q = f q := by
  simp [upd, h]

/-- The list a span with `n` objects out belongs to. -/
def ix (k : Geo) (n : Nat) : Nat :=
  if k.count ≤ 16 then 8 - n else 8 - min (bitWidth n) 8

theorem bitWidth_pos {n : Nat} (h : 0 < n) : 0 < bitWidth n := by
  unfold bitWidth; rw [if_neg (by omega)]; omega

theorem bitWidth_le {n m : Nat} (h : n < 2 ^ m) : bitWidth n ≤ m := by
  unfold bitWidth
  split
  · omega
  · rename_i h0
    have := (Nat.log2_lt h0).2 h
    omega

theorem indexFor_eq (k : Geo) {n : Nat} (h : 0 < n) : indexFor k n (bitWidth n) = some (ix k n) := by
  have hb := bitWidth_pos h
  unfold indexFor ix kNumLists
  rw [if_neg (by omega)]
  by_cases hc : k.count ≤ 2 * 8
  · rw [if_pos hc, if_pos (show k.count ≤ 16 by omega)]
    congr 1
    split <;> omega
  · rw [if_neg hc, if_neg (by omega), if_neg (show ¬ k.count ≤ 16 by omega)]

theorem ix_lt (k : Geo) {n : Nat} (h : 0 < n) : ix k n < 8 := by
  have hb := bitWidth_pos h
  unfold ix
  split <;> omega

/-! ### The lists -/

/-- The lists hold exactly the spans with something free, each on the list of its count. -/
structure KL (k : Geo) (hl : HL) (idx : Nat → Nat) (sp : List Nat) (len : Nat → Nat) : Prop where
  reach : HintedLists.Reach 8 hl
  on : ∀ p i, p ∈ hl.lists i ↔ p ∈ sp ∧ len p < k.count ∧ i = ix k (len p)
  idx : ∀ p ∈ sp, len p < k.count → idx p = ix k (len p)

theorem KL.add {k : Geo} {hl : HL} {idx : Nat → Nat} {sp : List Nat} {len : Nat → Nat}
    (h : KL k hl idx sp len) {p n : Nat} {sp' : List Nat} (hoff : p ∈ sp → ¬ len p < k.count)
    (hn : 0 < n) (hc : n < k.count) (hsp : ∀ q, q ∈ sp' ↔ q = p ∨ q ∈ sp) :
    ∃ hl', HintedLists.add kNumLists hl p (ix k n) = some hl' ∧
      KL k hl' (upd idx p (ix k n)) sp' (upd len p n) := by
  obtain ⟨hl', e, r, _, l⟩ := (HintedLists.steps_exact h.reach p).1 (ix k n) (ix_lt k hn)
    (fun j hj => by have := (h.on p j).1 hj; exact hoff this.1 this.2.1)
  refine ⟨hl', e, r, ?_, ?_⟩
  · intro q i
    rw [l i]
    by_cases hq : q = p
    · subst hq
      rw [upd_same, hsp]
      constructor
      · intro hm
        by_cases hi : i = ix k n
        · exact ⟨Or.inl rfl, hc, hi⟩
        · rw [if_neg hi] at hm
          have := (h.on q i).1 hm
          exact absurd this.2.1 (hoff this.1)
      · rintro ⟨_, _, rfl⟩
        rw [if_pos rfl]; simp
    · rw [upd_ne _ _ hq, hsp]
      have : (q ∈ if i = ix k n then p :: hl.lists (ix k n) else hl.lists i) ↔ q ∈ hl.lists i := by
        by_cases hi : i = ix k n
        · rw [if_pos hi, hi]; simp [hq]
        · rw [if_neg hi]
      rw [this, h.on q i]
      simp [hq]
  · intro q hq hl
    by_cases hqp : q = p
    · subst hqp; rw [upd_same, upd_same]
    · rw [upd_ne _ _ hqp] at *
      rw [upd_ne _ _ hqp]
      exact h.idx q (((hsp q).1 hq).resolve_left hqp) hl

theorem KL.remove {k : Geo} {hl : HL} {idx : Nat → Nat} {sp : List Nat} {len : Nat → Nat}
    (h : KL k hl idx sp len) {p : Nat} (hp : p ∈ sp) (hf : len p < k.count) (hpos : 0 < len p)
    {sp' : List Nat} {len' : Nat → Nat}
    (hsp : ∀ q, q ≠ p → (q ∈ sp' ↔ q ∈ sp)) (hlen : ∀ q, q ≠ p → len' q = len q)
    (hoff : p ∈ sp' → ¬ len' p < k.count) :
    ∃ hl', HintedLists.remove kNumLists hl p (idx p) = some hl' ∧ KL k hl' idx sp' len' := by
  rw [h.idx p hp hf]
  have hm := (h.on p (ix k (len p))).2 ⟨hp, hf, rfl⟩
  obtain ⟨hl', e, r, _, l⟩ := (HintedLists.steps_exact h.reach p).2.1 _ (ix_lt k hpos) hm
  have hnd := (HintedLists.index_exact h.reach).2.2.1
  refine ⟨hl', e, r, ?_, ?_⟩
  · intro q i
    rw [l i]
    by_cases hq : q = p
    · subst hq
      constructor
      · intro hmm
        exfalso
        by_cases hi : i = ix k (len q)
        · rw [if_pos hi] at hmm
          exact ((hnd _).mem_erase_iff.1 hmm).1 rfl
        · rw [if_neg hi] at hmm
          exact hi ((h.on q i).1 hmm).2.2
      · rintro ⟨a, b, _⟩; exact absurd b (hoff a)
    · rw [hsp q hq, hlen q hq, ← h.on q i]
      by_cases hi : i = ix k (len p)
      · rw [if_pos hi, (hnd _).mem_erase_iff, hi]; simp [hq]
      · rw [if_neg hi]
  · intro q hq hl
    by_cases hqp : q = p
    · subst hqp; exact absurd hl (hoff hq)
    · rw [hlen q hqp] at *
      exact h.idx q ((hsp q hqp).1 hq) hl

theorem KL.off {k : Geo} {hl : HL} {idx : Nat → Nat} {sp : List Nat} {len : Nat → Nat}
    (h : KL k hl idx sp len) {p : Nat} (hp : p ∈ sp → ¬ len p < k.count)
    {sp' : List Nat} {len' : Nat → Nat}
    (hsp : ∀ q, q ≠ p → (q ∈ sp' ↔ q ∈ sp)) (hlen : ∀ q, q ≠ p → len' q = len q)
    (hoff : p ∈ sp' → ¬ len' p < k.count) : KL k hl idx sp' len' := by
  refine ⟨h.reach, ?_, ?_⟩
  · intro q i
    by_cases hq : q = p
    · subst hq
      rw [h.on]
      constructor
      · rintro ⟨a, b, _⟩; exact absurd b (hp a)
      · rintro ⟨a, b, _⟩; exact absurd b (hoff a)
    · rw [hsp q hq, hlen q hq, h.on]
  · intro q hq hl
    by_cases hqp : q = p
    · subst hqp; exact absurd hl (hoff hq)
    · rw [hlen q hqp] at *
      exact h.idx q ((hsp q hqp).1 hq) hl

theorem KL.move {k : Geo} {hl : HL} {idx : Nat → Nat} {sp : List Nat} {len : Nat → Nat}
    (h : KL k hl idx sp len) {p n : Nat} (hp : p ∈ sp) (hf : len p < k.count) (hpos : 0 < len p)
    (hn : 0 < n) (hc : n < k.count) (hne : ix k n ≠ idx p) :
    ∃ hl', HintedLists.move kNumLists hl p (idx p) (ix k n) = some hl' ∧
      KL k hl' (upd idx p (ix k n)) sp (upd len p n) := by
  rw [h.idx p hp hf] at *
  have hm := (h.on p (ix k (len p))).2 ⟨hp, hf, rfl⟩
  obtain ⟨hl', e, r, _, l⟩ := (HintedLists.steps_exact h.reach p).2.2 _ (ix k n) (ix_lt k hpos)
    (ix_lt k hn) (Ne.symm hne) hm
  have hnd := (HintedLists.index_exact h.reach).2.2.1
  refine ⟨hl', e, r, ?_, ?_⟩
  · intro q i
    rw [l i]
    by_cases hq : q = p
    · subst hq
      rw [upd_same]
      constructor
      · intro hmm
        by_cases hi : i = ix k n
        · exact ⟨hp, hc, hi⟩
        · rw [if_neg hi] at hmm
          exfalso
          by_cases hi2 : i = ix k (len q)
          · rw [if_pos hi2] at hmm
            exact ((hnd _).mem_erase_iff.1 hmm).1 rfl
          · rw [if_neg hi2] at hmm
            exact hi2 ((h.on q i).1 hmm).2.2
      · rintro ⟨_, _, rfl⟩
        rw [if_pos rfl]; simp
    · rw [upd_ne _ _ hq, ← h.on q i]
      by_cases hi : i = ix k n
      · rw [if_pos hi, hi]; simp [hq]
      · rw [if_neg hi]
        by_cases hi2 : i = ix k (len p)
        · rw [if_pos hi2, (hnd _).mem_erase_iff, hi2]; simp [hq]
        · rw [if_neg hi2]
  · intro q hq hl
    by_cases hqp : q = p
    · subst hqp; rw [upd_same, upd_same]
    · rw [upd_ne _ _ hqp] at *
      rw [upd_ne _ _ hqp]
      exact h.idx q hq hl

theorem KL.stay {k : Geo} {hl : HL} {idx : Nat → Nat} {sp : List Nat} {len : Nat → Nat}
    (h : KL k hl idx sp len) {p n : Nat} (hp : p ∈ sp) (hf : len p < k.count)
    (hc : n < k.count) (he : ix k n = idx p) : KL k hl idx sp (upd len p n) := by
  rw [h.idx p hp hf] at he
  refine ⟨h.reach, ?_, ?_⟩
  · intro q i
    by_cases hq : q = p
    · subst hq; rw [upd_same, h.on, he]; simp [hp, hf, hc]
    · rw [upd_ne _ _ hq, h.on]
  · intro q hq hl
    by_cases hqp : q = p
    · subst hqp; rw [upd_same, he]; exact h.idx q hp hf
    · rw [upd_ne _ _ hqp] at *; exact h.idx q hq hl

/-! ### The histogram -/

/-- Each bucket counts the spans whose number of objects out has that bit width. -/
def KH (hist : Nat → Int) (sp : List Nat) (len : Nat → Nat) : Prop :=
  ∀ b, hist b = ((sp.countP fun p => decide (bitWidth (len p) = b + 1) : Nat) : Int)

theorem countP_upd (sp : List Nat) (len : Nat → Nat) (p n b : Nat) (hnd : sp.Nodup) (hp : p ∈ sp) :
    (sp.countP fun q => decide (bitWidth (upd len p n q) = b + 1)) +
      (if bitWidth (len p) = b + 1 then 1 else 0) =
    (sp.countP fun q => decide (bitWidth (len q) = b + 1)) + (if bitWidth n = b + 1 then 1 else 0) := by
  have hperm := List.perm_cons_erase hp
  rw [hperm.countP_eq, hperm.countP_eq, List.countP_cons, List.countP_cons, upd_same]
  have : ((sp.erase p).countP fun q => decide (bitWidth (upd len p n q) = b + 1)) =
      (sp.erase p).countP fun q => decide (bitWidth (len q) = b + 1) := by
    apply List.countP_congr
    intro q hq
    have : q ≠ p := (hnd.mem_erase_iff.1 hq).1
    rw [upd_ne _ _ this]
  rw [this]
  simp only [decide_eq_true_eq]
  omega

theorem KH.change {hist : Nat → Int} {sp : List Nat} {len : Nat → Nat} (h : KH hist sp len)
    (hnd : sp.Nodup) {p n : Nat} (hp : p ∈ sp) (c : Cfl) (hc : c.hist = hist)
    (h1 : 0 < len p) (h2 : len p < 2 ^ 16) (h3 : 0 < n) (h4 : n < 2 ^ 16) :
    ∃ hist', recordChange c (bitWidth (len p)) (bitWidth n) = some { c with hist := hist' } ∧
      KH hist' sp (upd len p n) := by
  have a1 := bitWidth_pos h1
  have a2 := bitWidth_le h2
  have a3 := bitWidth_pos h3
  have a4 := bitWidth_le h4
  unfold recordChange
  by_cases he : bitWidth n ≠ bitWidth (len p)
  · rw [if_pos he]
    unfold recordSpanUtil kSpanUtilBucketCapacity
    rw [if_pos ⟨a1, by omega⟩]
    simp only [Option.bind_some]
    rw [if_pos ⟨a3, by omega⟩]
    refine ⟨_, rfl, ?_⟩
    intro b
    have hcount := countP_upd sp len p n b hnd hp
    have hb := h b
    rw [hc]
    unfold upd at *
    by_cases e1 : b = bitWidth n - 1
    · have e2 : b ≠ bitWidth (len p) - 1 := by omega
      rw [if_pos (show bitWidth n = b + 1 by omega), if_neg (show ¬ bitWidth (len p) = b + 1 by omega)]
        at hcount
      simp only [← e1, e2, if_true, if_false, hb]
      omega
    · by_cases e2 : b = bitWidth (len p) - 1
      · rw [if_neg (show ¬ bitWidth n = b + 1 by omega), if_pos (show bitWidth (len p) = b + 1 by omega)]
          at hcount
        simp only [e1, ← e2, if_true, if_false, hb, Bool.false_eq_true]
        omega
      · rw [if_neg (show ¬ bitWidth n = b + 1 by omega), if_neg (show ¬ bitWidth (len p) = b + 1 by omega)]
          at hcount
        simp only [e1, e2, if_false, hb]
        omega
  · rw [if_neg he]
    have he' : bitWidth n = bitWidth (len p) := Classical.byContradiction he
    refine ⟨c.hist, rfl, ?_⟩
    intro b
    have hcount := countP_upd sp len p n b hnd hp
    rw [he'] at hcount
    rw [hc, h b]
    omega

theorem KH.drop {hist : Nat → Int} {sp : List Nat} {len : Nat → Nat} (h : KH hist sp len)
    {p : Nat} (hp : p ∈ sp) (c : Cfl) (hc : c.hist = hist)
    (h1 : 0 < len p) (h2 : len p < 2 ^ 16) :
    ∃ hist', recordSpanUtil c (bitWidth (len p)) false = some { c with hist := hist' } ∧
      KH hist' (sp.erase p) len := by
  have a1 := bitWidth_pos h1
  have a2 := bitWidth_le h2
  unfold recordSpanUtil kSpanUtilBucketCapacity
  rw [if_pos ⟨a1, by omega⟩]
  refine ⟨_, rfl, ?_⟩
  intro b
  have hb := h b
  rw [(List.perm_cons_erase hp).countP_eq, List.countP_cons] at hb
  rw [hc]
  unfold upd
  by_cases e : b = bitWidth (len p) - 1
  · rw [if_pos (show decide (bitWidth (len p) = b + 1) = true by simp; omega)] at hb
    simp only [← e, if_true, hb, Bool.false_eq_true, if_false]
    omega
  · rw [if_neg (show ¬ decide (bitWidth (len p) = b + 1) = true by simp; omega)] at hb
    simp only [e, if_false, hb]
    omega

theorem KH.add {hist : Nat → Int} {sp : List Nat} {len : Nat → Nat} (h : KH hist sp len)
    {p n : Nat} (hp : p ∉ sp) (c : Cfl) (hc : c.hist = hist) (h1 : 0 < n) (h2 : n < 2 ^ 16) :
    ∃ hist', recordSpanUtil c (bitWidth n) true = some { c with hist := hist' } ∧
      KH hist' (p :: sp) (upd len p n) := by
  have a1 := bitWidth_pos h1
  have a2 := bitWidth_le h2
  unfold recordSpanUtil kSpanUtilBucketCapacity
  rw [if_pos ⟨a1, by omega⟩]
  refine ⟨_, rfl, ?_⟩
  intro b
  have hb := h b
  have hcg : (sp.countP fun q => decide (bitWidth (upd len p n q) = b + 1)) =
      sp.countP fun q => decide (bitWidth (len q) = b + 1) := by
    apply List.countP_congr
    intro q hq
    have : q ≠ p := fun e => hp (e ▸ hq)
    rw [upd_ne _ _ this]
  rw [List.countP_cons, hcg, upd_same, hc]
  by_cases e : b = bitWidth n - 1
  · rw [if_pos (show decide (bitWidth n = b + 1) = true by simp; omega), e, upd_same]
    rw [e] at hb
    rw [hb]
    simp
  · rw [if_neg (show ¬ decide (bitWidth n = b + 1) = true by simp; omega), upd_ne _ _ e]
    omega

/-- No span of an accepted class has 2^16 objects. -/
theorem count_lt {g : Geo} (hg : g.OK) : g.count < 2 ^ 16 := by
  cases hu : Span.useBitmap g
  · have h1 := hg.fits
    rw [hg.listOne hu, Nat.one_mul] at h1
    have h2 : g.pageSize ≤ 2 ^ 18 := Nat.pow_le_pow_right (by omega) hg.shiftHi
    have h3 : 8 ≤ g.size := by have := hg.sizePos; have := hg.size8; omega
    have h4 : g.count * 8 ≤ g.count * g.size := Nat.mul_le_mul_left _ h3
    omega
  · have h1 := hg.bitmapFits hu
    have := hg.cacheHi
    unfold Geo.bitmapSize at h1
    omega

end Verif.CentralFreeList
