import Verif.SystemAlloc.Spec
import Verif.MemoryTag.Props
import Verif.Util
/-! Helper lemmas. -/
namespace Verif.SystemAlloc
open Verif.MemoryTag

theorem Disj.symm {p q : Nat × Nat} (h : Disj p q) : Disj q p := fun x hx => h x ⟨hx.2, hx.1⟩

theorem tag_val_lt (t : Tag) : t.val ≤ 6 := by cases t <;> decide
theorem tag_val_inj {s t : Tag} (h : s.val = t.val) : s = t := by cases s <;> cases t <;> first | rfl | (exact absurd h (by decide))

theorem bitCeil_pow (n : Nat) : ∃ k, bitCeil n = 2 ^ k := by
  unfold bitCeil
  split
  · exact ⟨0, rfl⟩
  · exact ⟨_, rfl⟩

theorem bitCeil_ge (n : Nat) : n ≤ bitCeil n := by
  unfold bitCeil
  split
  · omega
  · have := Nat.lt_log2_self (n := n - 1)
    omega

theorem bitCeil_le {n k : Nat} (h : n ≤ 2 ^ k) : bitCeil n ≤ 2 ^ k := by
  unfold bitCeil
  split
  · exact Nat.one_le_two_pow
  · apply Nat.pow_le_pow_right (by omega)
    have : Nat.log2 (n - 1) < k := by
      rw [Nat.log2_lt (by omega)]; omega
    omega

theorem not64_bit {x i : Nat} (h : x < 2 ^ 64) : (not64 x).testBit i = (decide (i < 64) && !x.testBit i) := by
  unfold not64
  rw [Nat.sub_sub, Nat.add_comm]
  exact Nat.testBit_two_pow_sub_succ h i

theorem kTagMask_bit (i : Nat) : kTagMask.testBit i = decide (42 ≤ i ∧ i < 45) := by
  show (7 <<< 42 : Nat).testBit i = _
  rw [Nat.testBit_shiftLeft]
  have h7 : (7 : Nat) = 2 ^ 3 - 1 := rfl
  rw [h7, Nat.testBit_two_pow_sub_one]
  by_cases h1 : 42 ≤ i <;> by_cases h2 : i < 45 <;> simp [h1, h2] <;> omega

theorem kTagMask_lt : kTagMask < 2 ^ 64 := by decide

/-- The bits of the address tried at random. -/
theorem hint_bit {size alignment rnd k i : Nat} {tag : Tag} (hk : bitCeil (max alignment size) = 2 ^ k) (hk2 : k ≤ 42) :
    (hintAddr size alignment tag rnd).testBit i =
      ((rnd.testBit i && decide (i < 47 ∧ k ≤ i ∧ ¬ (42 ≤ i ∧ i < 45))) || (decide (42 ≤ i) && tag.val.testBit (i - 42))) := by
  unfold hintAddr
  dsimp only
  rw [hk]
  have hlt : 2 ^ k - 1 < 2 ^ 64 := by
    have := Nat.pow_le_pow_right (n := 2) (by omega) (show k ≤ 42 from hk2)
    omega
  rw [Nat.testBit_or, Nat.testBit_and, Nat.testBit_and, Nat.testBit_and, not64_bit hlt, not64_bit kTagMask_lt, kTagMask_bit,
    Nat.testBit_two_pow_sub_one, Nat.testBit_shiftLeft]
  show ((rnd.testBit i && decide (i < 47) && (decide (i < 64) && !(2 ^ k - 1).testBit i) && _) || (decide (42 ≤ i) && tag.val.testBit (i - 42))) = _
  rw [Nat.testBit_two_pow_sub_one]
  congr 1
  cases rnd.testBit i
  · simp
  · by_cases h1 : i < 47 <;> by_cases h2 : i < k <;> by_cases h3 : i < 64 <;> by_cases h4 : 42 ≤ i <;> by_cases h5 : i < 45 <;>
      simp [h1, h2, h3, h4, h5] <;> omega

theorem hint_aligned {size alignment rnd k : Nat} {tag : Tag} (hk : bitCeil (max alignment size) = 2 ^ k) (hk2 : k ≤ 42) :
    hintAddr size alignment tag rnd % 2 ^ k = 0 := by
  apply Nat.eq_of_testBit_eq
  intro i
  rw [Nat.testBit_mod_two_pow, hint_bit hk hk2]
  by_cases hi : i < k
  · have h1 : ¬ k ≤ i := by omega
    have h2 : ¬ 42 ≤ i := by omega
    simp [h1, h2]
  · simp [hi]

theorem hint_tag {size alignment rnd k : Nat} {tag : Tag} (hk : bitCeil (max alignment size) = 2 ^ k) (hk2 : k ≤ 42) :
    getMemoryTag (hintAddr size alignment tag rnd) = tag.val := by
  apply Nat.eq_of_testBit_eq
  intro i
  by_cases hi : i < 3
  · rw [← testBit_of_tag hi, hint_bit hk hk2]
    have h1 : 42 ≤ 42 + i ∧ 42 + i < 45 := by omega
    simp [h1]
  · rw [getMemoryTag_eq, show (8 : Nat) = 2 ^ 3 from rfl, Nat.testBit_mod_two_pow]
    have : tag.val.testBit i = false := by
      apply Nat.testBit_lt_two_pow
      have := tag_val_lt tag
      have := Nat.pow_le_pow_right (n := 2) (by omega) (show 3 ≤ i by omega)
      omega
    simp [hi, this]

theorem hint_lt {size alignment rnd k : Nat} {tag : Tag} (hk : bitCeil (max alignment size) = 2 ^ k) (hk2 : k ≤ 42) :
    hintAddr size alignment tag rnd < 2 ^ 47 := by
  apply Nat.lt_pow_two_of_testBit
  intro i hi
  rw [hint_bit hk hk2]
  have : tag.val.testBit (i - 42) = false := by
    apply Nat.testBit_lt_two_pow
    have := tag_val_lt tag
    have := Nat.pow_le_pow_right (n := 2) (by omega) (show 3 ≤ i - 42 by omega)
    omega
  have h1 : ¬ i < 47 := by omega
  simp [this, h1]

/-- A range within one block of the address space. -/
structure Good (tag : Tag) (align : Nat) (p size : Nat) : Prop where
  pos : 0 < p
  aligned : p % align = 0
  tagged : Tagged tag (p, size)
  top : p + size < 2 ^ 47

theorem tagged_top {tag : Tag} {p size : Nat} (hs : 0 < size) (hs2 : size ≤ 2 ^ 42) (hp : p < 2 ^ 47)
    (h1 : getMemoryTag p = tag.val) (h2 : getMemoryTag (p + size - 1) = tag.val) :
    Tagged tag (p, size) ∧ p + size < 2 ^ 47 := by
  rw [getMemoryTag_eq] at h1 h2
  have ht := tag_val_lt tag
  have hq : (p + size - 1) / 2 ^ 42 = p / 2 ^ 42 := by omega
  refine ⟨?_, by omega⟩
  intro x hx1 hx2
  dsimp only at hx1 hx2
  rw [getMemoryTag_eq]
  have : x / 2 ^ 42 = p / 2 ^ 42 := by omega
  rw [this]; exact h1

theorem usable_good {next size align : Nat} {tag : Tag} (hs : 0 < size) (hs2 : size ≤ 2 ^ 42) (hn : next < 2 ^ 47)
    (h : usable next size align tag = true) : Good tag align next size := by
  unfold usable at h
  simp only [Bool.and_eq_true, bne_iff_ne, ne_eq, beq_iff_eq] at h
  obtain ⟨⟨⟨h1, h2⟩, h3⟩, h4⟩ := h
  have := tagged_top hs hs2 hn h3 h4
  exact ⟨by omega, h2, this.1, this.2⟩

theorem block_of_aligned {p x k : Nat} (hk : k ≤ 42) (ha : p % 2 ^ k = 0) (h1 : p ≤ x) (h2 : x < p + 2 ^ k) :
    x / 2 ^ 42 = p / 2 ^ 42 := by
  have e : (2 : Nat) ^ 42 = 2 ^ k * 2 ^ (42 - k) := by rw [← Nat.pow_add]; congr 1; omega
  rw [e, ← Nat.div_div_eq_div_mul, ← Nat.div_div_eq_div_mul]
  congr 1
  have hpos : 0 < 2 ^ k := Nat.pow_pos (by omega)
  have hp := Nat.div_add_mod p (2 ^ k)
  apply Nat.div_eq_of_lt_le
  · rw [Nat.mul_comm]; omega
  · rw [Nat.mul_comm, Nat.mul_add]; omega

theorem hint_good {size a rnd : Nat} {tag : Tag} (hs : 0 < size) (hs2 : size ≤ 2 ^ 42) (ha : a ≤ 42)
    (h0 : hintAddr size (2 ^ a) tag rnd ≠ 0) : Good tag (2 ^ a) (hintAddr size (2 ^ a) tag rnd) size := by
  obtain ⟨k, hk⟩ := bitCeil_pow (max (2 ^ a) size)
  have hpa : 2 ^ a ≤ 2 ^ 42 := Nat.pow_le_pow_right (by omega) ha
  have hle : (2 : Nat) ^ k ≤ 2 ^ 42 := by
    rw [← hk]; exact bitCeil_le (by omega)
  have hk2 : k ≤ 42 := (Nat.pow_le_pow_iff_right (by omega)).1 hle
  have hge := bitCeil_ge (max (2 ^ a) size)
  rw [hk] at hge
  have hge2 : 2 ^ a ≤ 2 ^ k := Nat.le_trans (Nat.le_max_left _ _) hge
  have hge3 : size ≤ 2 ^ k := Nat.le_trans (Nat.le_max_right _ _) hge
  have hak : a ≤ k := (Nat.pow_le_pow_iff_right (a := 2) (by omega)).1 hge2
  have al := hint_aligned (rnd := rnd) (tag := tag) hk hk2
  have hb : ∀ x, hintAddr size (2 ^ a) tag rnd ≤ x → x < hintAddr size (2 ^ a) tag rnd + size →
      x / 2 ^ 42 = hintAddr size (2 ^ a) tag rnd / 2 ^ 42 := by
    intro x h1 h2
    exact block_of_aligned hk2 al h1 (by omega)
  have ht := hint_tag (rnd := rnd) (tag := tag) hk hk2
  have hl := hint_lt (rnd := rnd) (tag := tag) hk hk2
  have h2 : getMemoryTag (hintAddr size (2 ^ a) tag rnd + size - 1) = tag.val := by
    rw [getMemoryTag_eq, hb _ (by omega) (by omega), ← getMemoryTag_eq]; exact ht
  have := tagged_top hs hs2 hl ht h2
  refine ⟨by omega, ?_, this.1, this.2⟩
  exact Nat.mod_eq_zero_of_dvd (Nat.dvd_trans (Nat.pow_dvd_pow 2 hak) (Nat.dvd_of_mod_eq_zero al))

theorem randomHint_eq {size a rnd : Nat} {tag : Tag} (hs : 0 < size) (hs2 : size ≤ 2 ^ 42) (ha : a ≤ 42)
    (h0 : hintAddr size (2 ^ a) tag rnd ≠ 0) : randomHint size (2 ^ a) tag rnd = some (hintAddr size (2 ^ a) tag rnd) := by
  have := hint_good hs hs2 ha h0
  unfold randomHint
  dsimp only
  rw [if_neg h0, if_neg]
  rw [Decidable.not_not]
  exact this.tagged _ (Nat.le_refl _) (by dsimp only; omega)

/-- The loop of attempts. -/
theorem loop_spec {c : Cfg} {w : W} {size a : Nat} {tag : Tag} {o : Oracle} (hs : 0 < size) (hs2 : size ≤ 2 ^ 42)
    (ha : a ≤ 42) (hE : EnvOK c w size (2 ^ a) tag o) :
    ∀ fuel i addr, Good tag (2 ^ a) addr size → addr = attempt w size (2 ^ a) tag o i →
      ∃ n res, mmapLoop c size (2 ^ a) tag o fuel i addr = some (n, res) ∧ n < 2 ^ 47 ∧
        ∀ p, res = some p → Good tag (2 ^ a) p size ∧ ∃ j, o.kern j = some p := by
  intro fuel
  induction fuel with
  | zero => intro i addr hg _; exact ⟨addr, none, rfl, by have := hg.top; omega, fun p h => by cases h⟩
  | succ fuel ih =>
    intro i addr hg hat
    have htag : getMemoryTag addr = tag.val := hg.tagged _ (Nat.le_refl _) (by dsimp only; omega)
    unfold mmapLoop
    rw [if_neg (by rw [Decidable.not_not]; exact htag)]
    split
    · rename_i hk
      have := hg.top
      rw [if_pos ⟨by show _ ≤ 2 ^ 48; omega, hg.aligned⟩]
      refine ⟨_, _, rfl, hg.top, ?_⟩
      intro p hp
      cases hp
      exact ⟨hg, i, hk⟩
    · rename_i hk
      split
      · rename_i h
        exfalso
        simp only [Bool.and_eq_true, Option.isSome_iff_exists] at h
        obtain ⟨h1, r, h2⟩ := h
        apply hk
        rw [h2, hE.fixed h1 i r h2, hat]
      · split
        · exact ⟨addr, none, rfl, by have := hg.top; omega, fun p h => by cases h⟩
        · have h0 := hE.hint (i + 1)
          rw [randomHint_eq hs hs2 ha h0]
          exact ih (i + 1) _ (hint_good hs hs2 ha h0) rfl

/-- The allocator after a mapping was made, or not. -/
def W.mapTo (w : W) (tag : Tag) (n size : Nat) (res : Option Nat) : W :=
  ⟨fun t => if t = tag then n else w.next t, w.region, w.custom, (res.map fun p => (p, size)).toList ++ w.mapped, w.given⟩

/-- `MmapAlignedLocked`. -/
theorem mmapLocked_spec {c : Cfg} {w : W} {size a : Nat} {tag : Tag} {o : Oracle} (hs : 0 < size) (hs2 : size ≤ 2 ^ 42)
    (ha : a ≤ 42) (hsup : c.supports tag = true) (hn : w.next tag < 2 ^ 47) (hE : EnvOK c w size (2 ^ a) tag o) :
    ∃ n res, mmapLocked c w size (2 ^ a) tag o =
        some (w.mapTo tag n size res, res) ∧
      n < 2 ^ 47 ∧ ∀ p, res = some p → Good tag (2 ^ a) p size ∧ ∀ m ∈ w.mapped, Disj (p, size) m := by
  have hmask : kTagMask = 7 * 2 ^ 42 := by decide
  have hpa : 2 ^ a ≤ 2 ^ 42 := Nat.pow_le_pow_right (by omega) ha
  unfold mmapLocked
  have hd1 : decide (kTagMask < size) = false := by rw [decide_eq_false_iff_not, hmask]; omega
  have hd2 : decide (kTagMask < 2 ^ a) = false := by rw [decide_eq_false_iff_not, hmask]; omega
  rw [hsup, hd1, hd2]
  rw [if_neg (by decide)]
  have h0 := hE.hint 0
  have key : ∃ addr, (if usable (w.next tag) size (2 ^ a) tag then some (w.next tag) else randomHint size (2 ^ a) tag (o.rnd 0))
      = some addr ∧ Good tag (2 ^ a) addr size ∧ addr = attempt w size (2 ^ a) tag o 0 := by
    by_cases hu : usable (w.next tag) size (2 ^ a) tag = true
    · exact ⟨w.next tag, by rw [if_pos hu], usable_good hs hs2 hn hu, by unfold attempt; rw [if_pos hu]⟩
    · exact ⟨_, by rw [if_neg hu]; exact randomHint_eq hs hs2 ha h0, hint_good hs hs2 ha h0, by unfold attempt; rw [if_neg hu]⟩
  obtain ⟨addr, h1, h2, h3⟩ := key
  rw [h1]
  obtain ⟨n, res, h4, h5, h6⟩ := loop_spec hs hs2 ha hE 1000 0 addr h2 h3
  refine ⟨n, res, ?_, h5, ?_⟩
  · dsimp only
    rw [h4]
    cases res <;> rfl
  · intro p hp
    obtain ⟨g, j, hj⟩ := h6 p hp
    exact ⟨g, hE.free j p hj⟩

end Verif.SystemAlloc
