import Verif.Bitmap.Lemmas4
/-!
Properties of the fixed-size bitmap (C12, bitmap part), for every size `N` and every content.

`bitAt ws j` is bit `j` of the bitmap; `WF N ws` says it has the right number of words and no bit
outside `[0, N)` is set (it holds initially and every operation preserves it).
-/
namespace Verif.Bitmap

/-- **C12/C41.** `SetRange` and `ClearRange` change exactly the bits of the range, for ranges that cross
any number of words. -/
theorem setRange_exact (v : Bool) (N : Nat) (ws : List Word) (h : WF N ws) (index n : Nat)
    (hn : 0 < n) (hb : index + n ≤ N) :
    ∃ ws', setRangeValue v N ws index n = some ws' ∧ WF N ws' ∧
      ∀ j, bitAt ws' j = if index ≤ j ∧ j < index + n then v else bitAt ws j :=
  setRangeValue_spec v h hn hb

/-- **C12/C41.** `FindSet`/`FindClear` return the first matching index, or `N` if there is none. -/
theorem find_first (goal : Bool) (N : Nat) (ws : List Word) (h : WF N ws) (index : Nat)
    (hi : index < N) :
    ∃ r, findValue goal N ws index = some r ∧ index ≤ r ∧ r ≤ N ∧
      (∀ j, index ≤ j → j < r → bitAt ws j ≠ goal) ∧ (r < N → bitAt ws r = goal) :=
  findValue_spec goal h hi

/-- **C12/C41.** The backwards searches return the last matching index, or -1 if there is none. -/
theorem find_last (goal : Bool) (N : Nat) (ws : List Word) (h : WF N ws) (index : Nat)
    (hi : index < N) :
    ∃ r : Int, findValueBackwards goal N ws index = some r ∧ -1 ≤ r ∧ r ≤ index ∧
      (∀ j : Nat, r < j → j ≤ index → bitAt ws j ≠ goal) ∧ (0 ≤ r → bitAt ws r.toNat = goal) :=
  findValueBackwards_spec goal h hi

/-- **C12/C41.** `CountBits` counts, and `IsZero` tells whether anything is set. -/
theorem count_exact (N : Nat) (ws : List Word) (h : WF N ws) (index n : Nat)
    (hb : index + n ≤ N) :
    countBits N ws index n = some ((List.range' index n).countP (bitAt ws)) ∧
      (isZero ws = true ↔ ∀ j, j < N → bitAt ws j = false) :=
  ⟨countBits_spec h hb, isZero_spec h⟩

/-- **C12/C41.** Single-bit operations. -/
theorem single_bit_exact (N : Nat) (ws : List Word) (h : WF N ws) (i : Nat) (hi : i < N) :
    getBit N ws i = some (bitAt ws i) ∧
    (∃ ws', setBit N ws i = some (ws', bitAt ws i) ∧ WF N ws' ∧
      ∀ j, bitAt ws' j = if j = i then true else bitAt ws j) ∧
    (∃ ws', clearBit N ws i = some (ws', bitAt ws i) ∧ WF N ws' ∧
      ∀ j, bitAt ws' j = if j = i then false else bitAt ws j) :=
  ⟨getBit_spec h hi, setBit_spec h hi, clearBit_spec h hi⟩

/-- **C12/C41.** `PopBatch(limit)` removes the `min limit count` lowest set bits, reports exactly
those, in increasing order, and leaves every other bit alone. -/
theorem popBatch_lowest (N : Nat) (ws : List Word) (h : WF N ws) (limit : Nat) :
    ∃ ws' l, popBatch ws 0 limit = (ws', l) ∧ WF N ws' ∧
      l.Pairwise (· < ·) ∧
      (∀ j, j ∈ l ↔ bitAt ws j = true ∧ bitAt ws' j = false) ∧
      (∀ j, bitAt ws' j = true → bitAt ws j = true) ∧
      (∀ x ∈ l, ∀ j, bitAt ws' j = true → x < j) ∧
      l.length = min limit ((List.range' 0 N).countP (bitAt ws)) := by
  obtain ⟨h1, h2, h3, h4, h5, h6, h7⟩ := popBatch_spec ws 0 limit
  generalize hr : popBatch ws 0 limit = r at *
  obtain ⟨ws', l⟩ := r
  simp only [Nat.zero_mul, Nat.zero_add] at *
  have hmem : ∀ j, j ∈ l ↔ bitAt ws j = true ∧ bitAt ws' j = false := by
    intro j
    constructor
    · intro hj
      obtain ⟨j', rfl, hb⟩ := h3 j hj
      refine ⟨hb, ?_⟩
      cases hc : bitAt ws' j with
      | false => rfl
      | true => exact absurd hj ((h4 j).1 hc).2
    · rintro ⟨ha, hb⟩
      apply Classical.byContradiction
      intro hn
      have := (h4 j).2 ⟨ha, hn⟩
      rw [hb] at this; simp at this
  refine ⟨ws', l, rfl, ⟨by rw [h1]; exact h.len, ?_⟩, h2, hmem, fun j hj => ((h4 j).1 hj).1, h7, ?_⟩
  · intro j hj
    cases hc : bitAt ws' j with
    | false => rfl
    | true => rw [((h4 j).1 hc).1.symm, h.dead j hj] ; 
  · -- count
    have hcount : (List.range' 0 N).countP (bitAt ws) =
        l.length + (List.range' 0 N).countP (bitAt ws') := by
      have hl : l.length = (List.range' 0 N).countP (fun j => decide (j ∈ l)) := by
        rw [List.countP_eq_length_filter]
        apply List.Perm.length_eq
        apply (List.perm_ext_iff_of_nodup (h2.imp (by intro a b h; omega))
          ((List.nodup_range').filter _)).2
        intro a
        rw [List.mem_filter]
        constructor
        · intro ha
          refine ⟨?_, by simpa using ha⟩
          rw [List.mem_range'_1]
          apply Classical.byContradiction
          intro hn
          have := h.dead a (by omega)
          rw [((hmem a).1 ha).1] at this; simp at this
        · rintro ⟨_, ha⟩; simpa using ha
      rw [hl]
      have : ∀ (xs : List Nat), xs.countP (bitAt ws) =
          xs.countP (fun j => decide (j ∈ l)) + xs.countP (bitAt ws') := by
        intro xs
        induction xs with
        | nil => rfl
        | cons x xs ih =>
          rw [List.countP_cons, List.countP_cons, List.countP_cons, ih]
          by_cases hx : x ∈ l
          · have := (hmem x).1 hx
            simp [hx, this.1, this.2]; omega
          · have e : bitAt ws x = bitAt ws' x := by
              rw [Bool.eq_iff_iff]
              exact ⟨fun hh => (h4 x).2 ⟨hh, hx⟩, fun hh => ((h4 x).1 hh).1⟩
            simp [hx, e]
            omega
      exact this _
    by_cases hlt : l.length < limit
    · have hz : (List.range' 0 N).countP (bitAt ws') = 0 := by
        rw [List.countP_eq_zero]; intro x _; rw [h6 hlt x]; simp
      omega
    · omega

/-- **C12/C41.** `ClearLowestBit` clears the lowest set bit only. -/
theorem clearLowest_exact (ws : List Word) (f : Nat) (hf : ∀ j, j < f → bitAt ws j = false)
    (hset : bitAt ws f = true) (j : Nat) :
    bitAt (clearLowestBit ws) j = if j = f then false else bitAt ws j :=
  (clearLowestBit_spec ws f hf hset).2 j

/-- **C12/C41.** The bitwise operators are bit-by-bit and keep dead bits clear. -/
theorem bitwise_exact (N : Nat) (a b : List Word) (ha : WF N a) (hb : WF N b) :
    (WF N (complement N a) ∧ ∀ j, j < N → bitAt (complement N a) j = !bitAt a j) ∧
    (WF N (band a b) ∧ ∀ j, bitAt (band a b) j = (bitAt a j && bitAt b j)) ∧
    (WF N (bor a b) ∧ ∀ j, bitAt (bor a b) j = (bitAt a j || bitAt b j)) ∧
    (WF N (bxor a b) ∧ ∀ j, bitAt (bxor a b) j = (bitAt a j ^^ bitAt b j)) := by
  have hl : a.length = b.length := by rw [ha.len, hb.len]
  refine ⟨complement_spec ha, ⟨⟨?_, ?_⟩, band_bit a b⟩, ⟨⟨?_, ?_⟩, bor_bit a b hl⟩,
    ⟨⟨?_, ?_⟩, bxor_bit a b hl⟩⟩
  · simp [band, ha.len, hb.len]
  · intro j hj; rw [band_bit, ha.dead j hj]; rfl
  · simp [bor, ha.len, hb.len]
  · intro j hj; rw [bor_bit a b hl, ha.dead j hj, hb.dead j hj]; rfl
  · simp [bxor, ha.len, hb.len]
  · intro j hj; rw [bxor_bit a b hl, ha.dead j hj, hb.dead j hj]; rfl

/-- **C12/C41.** `Scale` by contraction: with `r` source bits per result bit, result bit `d` is set
iff all (`kAll`) / any (`kAny`) of source bits `[r d, r d + r)` are. -/
theorem scale_contract (N M r : Nat) (hr : 0 < r) (hM : 0 < M) (src : List Word) (h : WF N src)
    (hlen : r * M ≤ N) (all : Bool) :
    ∃ res, scale N M src (r * M) all = some res ∧ WF M res ∧ ∀ d, d < M →
      (bitAt res d = true ↔
        if all then ∀ k, k < r → bitAt src (r * d + k) = true
        else ∃ k, k < r ∧ bitAt src (r * d + k) = true) := by
  have hpos : 0 < r * M := Nat.mul_pos hr hM
  have e1 : r * M / M = r := Nat.mul_div_cancel _ hM
  have e2 : max 1 (M / (r * M)) = 1 := by
    have : M / (r * M) ≤ 1 := by
      rw [Nat.mul_comm, ← Nat.div_div_eq_div_mul, Nat.div_self hM]
      exact Nat.div_le_self 1 r
    omega
  unfold scale
  rw [if_pos ⟨hlen, hpos, Or.inl (Nat.mul_mod_left _ _)⟩, e1, e2, show max 1 r = r by omega]
  obtain ⟨res, s1, s2, s3⟩ := scaleLoop_spec h r 1 M (if all then r else 1) hr (by omega) hlen
    (by omega) M 0 (empty M) (by omega) (by omega) (wf_empty M)
    (by intro d _; rw [bitAt_empty]; simp)
  simp only [Nat.mul_zero] at s1
  refine ⟨res, s1, s2, ?_⟩
  intro d hd
  rw [s3 d hd, Nat.div_one]
  cases all
  · simp only [Bool.false_eq_true, if_false]
    rw [cnt_pos_iff]
    constructor
    · rintro ⟨k, h1, h2, h3⟩
      exact ⟨k - r * d, by omega, by rw [show r * d + (k - r * d) = k by omega]; exact h3⟩
    · rintro ⟨k, h1, h2⟩; exact ⟨r * d + k, by omega, by omega, h2⟩
  · simp only [if_true]
    rw [cnt_eq_len_iff]
    constructor
    · intro hh k hk; exact hh _ (by omega) (by omega)
    · intro hh k h1 h2
      have := hh (k - r * d) (by omega)
      rwa [show r * d + (k - r * d) = k by omega] at this

/-- **C12/C41.** `Scale` by expansion: each source bit is repeated `r` times. -/
theorem scale_expand (N L r : Nat) (hr : 0 < r) (hL : 0 < L) (src : List Word) (h : WF N src)
    (hlen : L ≤ N) (all : Bool) :
    ∃ res, scale N (r * L) src L all = some res ∧ WF (r * L) res ∧ ∀ d, d < r * L →
      bitAt res d = bitAt src (d / r) := by
  have e1 : r * L / L = r := Nat.mul_div_cancel _ hL
  have e2 : max 1 (L / (r * L)) = 1 := by
    have : L / (r * L) ≤ 1 := by
      rw [Nat.mul_comm, ← Nat.div_div_eq_div_mul, Nat.div_self hL]
      exact Nat.div_le_self 1 r
    omega
  unfold scale
  rw [if_pos ⟨hlen, hL, Or.inr (Nat.mul_mod_left _ _)⟩, e1, e2, show max 1 r = r by omega]
  obtain ⟨res, s1, s2, s3⟩ := scaleLoop_spec (M := r * L) h 1 r L (if all then 1 else 1) (by omega)
    hr (by omega) rfl L 0 (empty (r * L)) (by omega) (by omega) (wf_empty _)
    (by intro d _; rw [bitAt_empty]; simp)
  simp only [Nat.mul_zero, Nat.one_mul] at s1
  refine ⟨res, s1, s2, ?_⟩
  intro d hd
  rw [Bool.eq_iff_iff, s3 d hd, Nat.one_mul, cnt_one, ite_self]
  cases bitAt src (d / r) <;> simp

/-- Non-vacuity: a 200-bit map (three full words and a partial one); a range across three words. -/
example : ∃ ws', setRangeValue true 200 (empty 200) 60 80 = some ws' ∧ bitAt ws' 139 = true ∧
    bitAt ws' 140 = false := by
  obtain ⟨ws', h1, -, h3⟩ := setRange_exact true 200 (empty 200) (wf_empty 200) 60 80 (by omega)
    (by omega)
  exact ⟨ws', h1, by rw [h3]; rfl, by rw [h3]; simp [bitAt_empty]⟩

end Verif.Bitmap
