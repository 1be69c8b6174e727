import Verif.MemoryTag.Model
/-!
C36: the tag bits of an address.
-/
namespace Verif.MemoryTag
open Verif.SizeMap (Cfg)

theorem getMemoryTag_eq (ptr : Nat) : getMemoryTag ptr = ptr / 2 ^ 42 % 8 := by
  show (ptr &&& (7 <<< 42)) >>> 42 = _
  rw [Nat.shiftRight_and_distrib, Nat.shiftLeft_shiftRight, Nat.shiftRight_eq_div_pow]
  exact Nat.and_two_pow_sub_one_eq_mod _ 3

theorem and_mask_eq_iff {x m c : Nat} :
    x &&& m = c ↔ ∀ i, (x.testBit i && m.testBit i) = c.testBit i := by
  constructor
  · intro h i; rw [← Nat.testBit_and, h]
  · intro h; apply Nat.eq_of_testBit_eq; intro i; rw [Nat.testBit_and]; exact h i

theorem testBit_of_tag {ptr i : Nat} (hi : i < 3) :
    ptr.testBit (42 + i) = (getMemoryTag ptr).testBit i := by
  rw [getMemoryTag_eq, show (8 : Nat) = 2 ^ 3 from rfl, Nat.testBit_mod_two_pow,
    Nat.testBit_div_two_pow]
  simp [hi, Nat.add_comm]

theorem lt48_iff {ptr : Nat} (h : ptr < 2 ^ 64) :
    ptr < 2 ^ 48 ↔ ∀ i, 48 ≤ i → i < 64 → ptr.testBit i = false := by
  constructor
  · intro hl i h1 _
    exact Nat.testBit_lt_two_pow (Nat.lt_of_lt_of_le hl (Nat.pow_le_pow_right (by omega) h1))
  · intro hb
    apply Nat.lt_pow_two_of_testBit
    intro i hi
    by_cases h64 : i < 64
    · exact hb i hi h64
    · exact Nat.testBit_lt_two_pow (Nat.lt_of_lt_of_le h (Nat.pow_le_pow_right (by omega) (by omega)))

theorem aligned8_iff {ptr : Nat} : 8 ∣ ptr ↔ ∀ i, i < 3 → ptr.testBit i = false := by
  rw [Nat.dvd_iff_mod_eq_zero, show (8 : Nat) = 2 ^ 3 from rfl]
  constructor
  · intro h i hi
    have := Nat.testBit_mod_two_pow ptr 3 i
    rw [h] at this
    simp [hi] at this
    exact this.symm ▸ rfl
  · intro h
    apply Nat.eq_of_testBit_eq
    intro i
    rw [Nat.testBit_mod_two_pow]
    by_cases hi : i < 3
    · simp [hi, h i hi]
    · simp [hi]

theorem bits64 (P : Nat → Prop) (h : ∀ i : Fin 64, P i.val) (h2 : ∀ i, 64 ≤ i → P i) : ∀ i, P i := by
  intro i
  by_cases hi : i < 64
  · exact h ⟨i, hi⟩
  · exact h2 i (by omega)

theorem normalOrBad_bit (i : Nat) :
    kNormalOrBadMask.testBit i = (decide (i < 3) || decide (i = 44) || (decide (48 ≤ i) && decide (i < 64))) := by
  revert i
  apply bits64
  · decide +kernel
  · intro i hi
    rw [Nat.testBit_lt_two_pow (Nat.lt_of_lt_of_le (show kNormalOrBadMask < 2 ^ 64 by decide +kernel)
      (Nat.pow_le_pow_right (by omega) hi))]
    simp; omega

theorem normal_bit (i : Nat) : kNormalMask.testBit i = decide (i = 44) := by
  revert i
  apply bits64
  · decide +kernel
  · intro i hi
    rw [Nat.testBit_lt_two_pow (Nat.lt_of_lt_of_le (show kNormalMask < 2 ^ 64 by decide +kernel)
      (Nat.pow_le_pow_right (by omega) hi))]
    simp; omega

theorem tagOrBad_bit (i : Nat) :
    kTagOrBadMask.testBit i = (decide (i < 3) || (decide (42 ≤ i) && decide (i < 45)) ||
      (decide (48 ≤ i) && decide (i < 64))) := by
  revert i
  apply bits64
  · decide +kernel
  · intro i hi
    rw [Nat.testBit_lt_two_pow (Nat.lt_of_lt_of_le (show kTagOrBadMask < 2 ^ 64 by decide +kernel)
      (Nat.pow_le_pow_right (by omega) hi))]
    simp; omega

theorem cold_bit (i : Nat) : kColdMask.testBit i = decide (i = 43) := by
  revert i
  apply bits64
  · decide +kernel
  · intro i hi
    rw [Nat.testBit_lt_two_pow (Nat.lt_of_lt_of_le (show kColdMask < 2 ^ 64 by decide +kernel)
      (Nat.pow_le_pow_right (by omega) hi))]
    simp; omega

theorem getMemoryTag_lt (ptr : Nat) : getMemoryTag ptr < 8 := by
  rw [getMemoryTag_eq]; omega

theorem isNormal_iff_bit (ptr : Nat) : isNormalMemory ptr = true ↔ ptr.testBit 44 = true := by
  have h := testBit_of_tag (ptr := ptr) (i := 2) (by omega)
  have hl := getMemoryTag_lt ptr
  unfold isNormalMemory
  rw [show (44 : Nat) = 42 + 2 from rfl, h]
  generalize getMemoryTag ptr = t at hl
  revert t
  decide

theorem tag_cold_iff_bits (ptr : Nat) : getMemoryTag ptr = Tag.cold.val ↔
    (ptr.testBit 42 = false ∧ ptr.testBit 43 = true ∧ ptr.testBit 44 = false) := by
  have h0 := testBit_of_tag (ptr := ptr) (i := 0) (by omega)
  have h1 := testBit_of_tag (ptr := ptr) (i := 1) (by omega)
  have h2 := testBit_of_tag (ptr := ptr) (i := 2) (by omega)
  have hl := getMemoryTag_lt ptr
  rw [show (44 : Nat) = 42 + 2 from rfl, show (43 : Nat) = 42 + 1 from rfl,
    show ptr.testBit 42 = ptr.testBit (42 + 0) from rfl, h0, h1, h2]
  generalize getMemoryTag ptr = t at hl
  revert t
  decide

/-! ## Theorems -/

/-- An address carries exactly one tag: the three bits above bit 42 (so every 4 TiB-aligned
4 TiB range of addresses has a single tag, and everything in it the same one). -/
theorem tag_is_address_range (ptr : Nat) : getMemoryTag ptr = ptr / 2 ^ 42 % 8 :=
  getMemoryTag_eq ptr

/-- Distinct tags have distinct values, so no address can carry two. -/
theorem tags_distinct (a b : Tag) (ptr : Nat) (ha : getMemoryTag ptr = a.val)
    (hb : getMemoryTag ptr = b.val) : a = b := by
  rw [ha] at hb
  cases a <;> cases b <;> first | rfl | (exfalso; revert hb; decide)

/-- "Normal" is exactly the two normal-partition tags, among the tags the allocator hands out. -/
theorem normal_exact (t : Tag) (ptr : Nat) (h : getMemoryTag ptr = t.val) :
    isNormalMemory ptr = true ↔ (t = .normalP0 ∨ t = .normalP1) := by
  unfold isNormalMemory; rw [h]; cases t <;> decide

/-- "Sampled" is exactly the two sampled tags. -/
theorem sampled_exact (t : Tag) (ptr : Nat) (h : getMemoryTag ptr = t.val) :
    isSampledMemory ptr = true ↔ (t = .sampled ∨ t = .sampledP1) := by
  unfold isSampledMemory; rw [h]; cases t <;> decide

/-- Pointers inside a block whose address range does not cross a 4 TiB boundary decode to the same
tag as the start of the block. -/
theorem tag_of_interior (p q : Nat) (h : p / 2 ^ 42 = q / 2 ^ 42) :
    getMemoryTag p = getMemoryTag q := by
  rw [getMemoryTag_eq, getMemoryTag_eq, h]

/-- The partition recovered from a pointer is the partition its normal tag was made for; the fast
decoding agrees with the slow one on normal memory. -/
theorem partition_roundtrip (cfg : Cfg) (part ptr : Nat) (t : Tag)
    (hpart : part < cfg.normalParts) (ht : multiNormalTag part = some t)
    (h : getMemoryTag ptr = t.val) :
    partitionFromPointer cfg ptr = part ∧ partitionFromPointerFast cfg ptr = part := by
  unfold partitionFromPointer partitionFromPointerFast
  rw [h]
  match part, ht with
  | 0, ht => cases ht; constructor <;> (split <;> simp [Tag.val])
  | 1, ht =>
    cases ht
    have : cfg.normalParts ≠ 1 := by omega
    simp [this, Tag.val]

/-- The one-instruction test of `free`: it accepts exactly the addresses that are below 2^48,
8-byte aligned and carry a normal tag. -/
theorem fast_free_test (ptr : Nat) (h : ptr < 2 ^ 64) :
    ptrKind ptr = .fastNormal ↔ (ptr < 2 ^ 48 ∧ 8 ∣ ptr ∧ isNormalMemory ptr = true) := by
  have key : ptr &&& kNormalOrBadMask = kNormalMask ↔
      (ptr < 2 ^ 48 ∧ 8 ∣ ptr ∧ isNormalMemory ptr = true) := by
    rw [and_mask_eq_iff, lt48_iff h, aligned8_iff, isNormal_iff_bit]
    constructor
    · intro hb
      refine ⟨fun i h1 h2 => ?_, fun i h1 => ?_, ?_⟩
      · have := hb i; rw [normalOrBad_bit, normal_bit] at this
        simpa [h1, h2, show ¬ i = 44 by omega] using this
      · have := hb i; rw [normalOrBad_bit, normal_bit] at this
        simpa [h1, show ¬ i = 44 by omega] using this
      · have := hb 44; rw [normalOrBad_bit, normal_bit] at this
        simpa using this
    · rintro ⟨h1, h2, h3⟩ i
      rw [normalOrBad_bit, normal_bit]
      by_cases e : i = 44
      · subst e; simp [h3]
      · by_cases e2 : i < 3
        · simp [h2 i e2, e]
        · by_cases e3 : 48 ≤ i ∧ i < 64
          · simp [h1 i e3.1 e3.2, e]
          · simp only [e, e2]; simp; intro _ h48; omega
  rw [← key]
  unfold ptrKind
  by_cases e : ptr &&& kNormalOrBadMask = kNormalMask
  · simp [e]
  · simp only [ne_eq, e, not_false_eq_true, if_true, iff_false]
    split <;> (try split) <;> simp

/-- The cold test of sized free: after the fast test and the null test failed it accepts exactly the
addresses that are below 2^48, 8-byte aligned and carry the cold tag. -/
theorem cold_free_test (ptr : Nat) (h : ptr < 2 ^ 64) :
    ptrKind ptr = .cold ↔ (ptr < 2 ^ 48 ∧ 8 ∣ ptr ∧ getMemoryTag ptr = Tag.cold.val) := by
  have key : ptr &&& kTagOrBadMask = kColdMask ↔
      (ptr < 2 ^ 48 ∧ 8 ∣ ptr ∧ getMemoryTag ptr = Tag.cold.val) := by
    rw [and_mask_eq_iff, lt48_iff h, aligned8_iff, tag_cold_iff_bits]
    constructor
    · intro hb
      refine ⟨fun i h1 h2 => ?_, fun i h1 => ?_, ?_, ?_, ?_⟩
      · have := hb i; rw [tagOrBad_bit, cold_bit] at this
        simpa [h1, h2, show ¬ i = 43 by omega] using this
      · have := hb i; rw [tagOrBad_bit, cold_bit] at this
        simpa [h1, show ¬ i = 43 by omega] using this
      · have := hb 42; rw [tagOrBad_bit, cold_bit] at this
        simpa using this
      · have := hb 43; rw [tagOrBad_bit, cold_bit] at this
        simpa using this
      · have := hb 44; rw [tagOrBad_bit, cold_bit] at this
        simpa using this
    · rintro ⟨h1, h2, h42, h43, h44⟩ i
      rw [tagOrBad_bit, cold_bit]
      by_cases e : i = 43
      · subst e; simp [h43]
      · by_cases e2 : i < 3
        · simp [h2 i e2, e]
        · by_cases e3 : 48 ≤ i ∧ i < 64
          · simp [h1 i e3.1 e3.2, e]
          · by_cases e4 : i = 42
            · subst e4; simp [h42]
            · by_cases e5 : i = 44
              · subst e5; simp [h44]
              · simp only [e, e2]; simp; intro _; omega
  rw [← key]
  have hf := fast_free_test ptr h
  unfold ptrKind at hf ⊢
  by_cases e : ptr &&& kNormalOrBadMask = kNormalMask
  · simp only [ne_eq, e, not_true_eq_false, if_false] at hf ⊢
    simp only [true_iff] at hf
    constructor
    · intro h'; cases h'
    · intro h'
      have h2 := (tag_cold_iff_bits ptr).1 (key.1 h').2.2
      have h3 := (isNormal_iff_bit ptr).1 hf.2.2
      rw [h2.2.2] at h3; cases h3
  · simp only [ne_eq, e, not_false_eq_true, if_true]
    by_cases e0 : ptr = 0
    · subst e0; simp; decide +kernel
    · simp only [e0, if_false]
      split <;> simp_all

/-- Both tests, on the addresses of a block the allocator handed out with tag `t`: normal memory
takes the fast route, cold memory the cold route, and everything else (sampled, guarded) the
irregular route; null is recognised. -/
theorem route_by_tag (t : Tag) (ptr : Nat) (h48 : ptr < 2 ^ 48) (h8 : 8 ∣ ptr) (h0 : ptr ≠ 0)
    (ht : getMemoryTag ptr = t.val) :
    ptrKind ptr = match t with
      | .normalP0 | .normalP1 => .fastNormal
      | .cold => .cold
      | .sampled | .sampledP1 | .metadata => .irregular := by
  have h64 : ptr < 2 ^ 64 := by omega
  have hf := fast_free_test ptr h64
  have hc := cold_free_test ptr h64
  have hn := normal_exact t ptr ht
  have hnull : ptrKind ptr ≠ .null := by
    unfold ptrKind
    simp only [h0, if_false]
    split
    · split <;> simp
    · simp
  cases t
  case normalP0 => exact hf.2 ⟨h48, h8, hn.2 (Or.inl rfl)⟩
  case normalP1 => exact hf.2 ⟨h48, h8, hn.2 (Or.inr rfl)⟩
  case cold => exact hc.2 ⟨h48, h8, ht⟩
  all_goals
    have h1 : ptrKind ptr ≠ .fastNormal := fun hk => by
      have := hn.1 (hf.1 hk).2.2; simp at this
    have h2 : ptrKind ptr ≠ .cold := fun hk => by
      have := (hc.1 hk).2.2; rw [ht] at this; revert this; decide
    generalize ptrKind ptr = k at *
    cases k <;> simp_all

theorem null_recognised : ptrKind 0 = .null := by decide +kernel

/-! ### Non-vacuity -/
example : getMemoryTag (0x100000000000 + 4096) = Tag.normalP0.val := by decide +kernel
example : ptrKind (0x100000000000 + 4096) = .fastNormal := by decide +kernel
example : ptrKind (0x180000000000 + 4096) = .fastNormal := by decide +kernel
example : ptrKind (0x080000000000 + 4096) = .cold := by decide +kernel
example : ptrKind (0x000000001000) = .irregular := by decide +kernel
example : ptrKind (0x100000000000 + 4097) = .irregular := by decide +kernel

end Verif.MemoryTag
