import Verif.Reports.Model
/-! C87: the record of a crash says what happened. -/
namespace Verif.Reports

theorem take_copy (arr st : List Nat) : (copyTo arr st).take (depthOf st) = st.take 64 := by
  unfold copyTo
  have h : depthOf st ≤ st.length := Nat.min_le_right _ _
  rw [List.take_append_of_le_length (by rw [List.length_take]; omega), List.take_take]
  unfold depthOf kMaxStackDepth at *
  rw [Nat.min_self]
  rcases Nat.le_total 64 st.length with e | e
  · rw [show Nat.min 64 st.length = 64 from Nat.min_eq_left e]
  · rw [show Nat.min 64 st.length = st.length from Nat.min_eq_right e, List.take_of_length_le (Nat.le_refl _), List.take_of_length_le e]

theorem take_copy64 (arr st : List Nat) : (copyTo arr (st.take 64)).take (depthOf (st.take 64)) = st.take 64 := by
  rw [take_copy, List.take_take, Nat.min_self]

theorem countrZero_spec (a : Nat) (h : 0 < a) : 2 ^ countrZero a ∣ a ∧ ¬ 2 ^ (countrZero a + 1) ∣ a := by
  induction a using Nat.strongRecOn with
  | ind a ih =>
    unfold countrZero
    rw [if_neg (by omega)]
    split
    · refine ⟨Nat.one_dvd _, ?_⟩
      rw [Nat.dvd_iff_mod_eq_zero]
      simp only [Nat.zero_add, Nat.pow_one]
      omega
    · obtain ⟨h1, h2⟩ := ih (a / 2) (by omega) (by omega)
      have e : a = 2 * (a / 2) := by omega
      constructor
      · rw [Nat.pow_succ, Nat.mul_comm, e]
        rw [show 2 * (a / 2) / 2 = a / 2 by omega]
        exact Nat.mul_dvd_mul_left 2 h1
      · intro h3
        apply h2
        rw [Nat.pow_succ, Nat.mul_comm, e] at h3
        rw [show 2 * (a / 2) / 2 = a / 2 by omega] at h3
        exact Nat.dvd_of_mul_dvd_mul_left (by decide) h3

/-- The alignment computed is the alignment of the pointer, if the computation is defined. -/
theorem actualAlign_ok {p k : Nat} (h : actualAlign p = some k) : AlignmentOf p k := by
  unfold actualAlign at h
  split at h
  · rename_i hlt
    simp only [Option.some.injEq] at h
    have h0 : 0 < p := by
      rcases Nat.eq_zero_or_pos p with rfl | h0
      · unfold countrZero at hlt; simp at hlt
      · exact h0
    refine ⟨countrZero p, by rw [← h, Nat.one_shiftLeft], (countrZero_spec p h0).1, (countrZero_spec p h0).2⟩
  · cases h

/-- It is defined for every pointer that is not a multiple of 4 GiB. -/
theorem actualAlign_defined (p : Nat) : (actualAlign p).isSome = true ↔ ¬ 2 ^ 32 ∣ p := by
  unfold actualAlign
  rcases Nat.eq_zero_or_pos p with rfl | h0
  · unfold countrZero; simp
  · obtain ⟨h1, h2⟩ := countrZero_spec p h0
    split
    · rename_i hlt
      simp only [Option.isSome_some, true_iff]
      intro h3
      exact h2 (Nat.dvd_trans (Nat.pow_dvd_pow 2 (by omega)) h3)
    · rename_i hge
      simp only [Option.isSome_none, Bool.false_eq_true, false_iff, Classical.not_not]
      exact Nat.dvd_trans (Nat.pow_dvd_pow 2 (by omega)) h1

/-- Errors whose report stores everything a reader looks at. -/
def Error.Full : Error → Prop
  | .doubleFree .. => False
  | .wild .. => False
  | _ => True

theorem sampled_max (a : Option Nat) (r : Nat) : (if a.getD r ≠ r then a.getD 0 else r) = a.getD r := by
  cases a with
  | none => simp
  | some x =>
    simp only [Option.getD_some]
    split
    · rfl
    · rename_i h; simpa using (Classical.not_not.1 h).symm

/-- Whatever was recorded before, a report that is defined and stores everything leaves the truth. -/
theorem full_truth {r r' : Rec} {e : Error} (hf : e.Full) (h : report r e = some r') : ∃ s, r'.read = some s ∧ Truth e s := by
  cases e with
  | sampledSize p n q a st here =>
    simp only [report, Option.some.injEq] at h
    subst h
    refine ⟨_, rfl, ?_⟩
    simp only [Rec.mismatch, Rec.putAllocOpt, Rec.putFreeOpt, Rec.putAlloc, Rec.putFree, Option.map_some, Truth, sampled_max,
      kMaxStackDepth, take_copy, List.take_take, Nat.min_self]
  | wrongSize p n lo hi here =>
    simp only [report, Option.some.injEq] at h
    subst h
    refine ⟨_, rfl, ?_⟩
    simp only [Rec.mismatch, Rec.putAllocOpt, Rec.putFreeOpt, Rec.putFree, Option.map_some, Option.map_none, Truth, kMaxStackDepth,
      take_copy64]
  | wrongClass p fl fh lo hi =>
    simp only [report, Option.some.injEq] at h
    subst h
    exact ⟨_, rfl, rfl⟩
  | doubleFree => exact hf.elim
  | wild => exact hf.elim
  | misaligned p x here =>
    simp only [report, Option.map_eq_some_iff] at h
    obtain ⟨k, hk, rfl⟩ := h
    refine ⟨_, rfl, k, actualAlign_ok hk, ?_⟩
    simp only [Rec.invalidAlign, Rec.putAllocOpt, Rec.putFree, Option.map_some, Option.map_none, kMaxStackDepth, take_copy64]
  | misalignedGuarded p x st here =>
    simp only [report, Option.map_eq_some_iff] at h
    obtain ⟨k, hk, rfl⟩ := h
    refine ⟨_, rfl, k, actualAlign_ok hk, ?_⟩
    simp only [Rec.invalidAlign, Rec.putAllocOpt, Rec.putAlloc, Rec.putFree, Option.map_some, kMaxStackDepth, take_copy, List.take_take, Nat.min_self]
  | wrongFamily p a d st here =>
    simp only [report, Option.some.injEq] at h
    subst h
    refine ⟨_, rfl, ?_⟩
    simp only [Rec.family, Rec.putAlloc, Rec.putFree, Option.map_some, kMaxStackDepth, take_copy, List.take_take, Nat.min_self, Truth]
  | wrongAlign p a d st here =>
    simp only [report, Option.some.injEq] at h
    subst h
    refine ⟨_, rfl, ?_⟩
    simp only [Rec.invalidAlign, Rec.putAllocOpt, Rec.putAlloc, Rec.putFree, Option.map_some, kMaxStackDepth, take_copy, List.take_take, Nat.min_self, Truth]

/-- **C87 (partial), one error.**  If one error is reported in the life of the process, and its report is defined, the record says
the truth about it.  Missing: several threads that report before the process is gone (`stale_stack`, `stale_alignment`), and
pointers for which the report itself is undefined (`report_defined`). -/
theorem first_report_true_partial {e : Error} {r : Rec} (h : report {} e = some r) : ∃ s, r.read = some s ∧ Truth e s := by
  cases e with
  | doubleFree p here =>
    simp only [report, Option.some.injEq] at h
    subst h
    refine ⟨_, rfl, ?_⟩
    simp only [Rec.double, Rec.putFree, Option.map_some, Option.map_none, kMaxStackDepth, take_copy64, Truth]
  | wild p here =>
    simp only [report, Option.some.injEq] at h
    subst h
    refine ⟨_, rfl, ?_⟩
    simp only [Rec.invalid, Rec.putFree, Option.map_some, Option.map_none, kMaxStackDepth, take_copy64, Truth]
  | _ => exact full_truth trivial h

/-- **C87 (partial), many errors.**  However many errors were reported before, the record says the truth about the last one, if
its report stores everything (all but double frees and wild pointers do) and is defined. -/
theorem last_report_true_partial {es : List Error} {e : Error} {r : Rec} (hf : e.Full) (h : reports {} (es ++ [e]) = some r) :
    ∃ s, r.read = some s ∧ Truth e s := by
  have key : ∀ (es : List Error) (r0 : Rec), reports r0 (es ++ [e]) = some r → ∃ r1, report r1 e = some r := by
    intro es
    induction es with
    | nil =>
      intro r0 h
      simp only [List.nil_append, reports] at h
      obtain ⟨x, h1, h2⟩ := Option.bind_eq_some_iff.1 h
      simp only [Option.some.injEq] at h2
      exact ⟨r0, by rw [h1, h2]⟩
    | cons a es ih =>
      intro r0 h
      simp only [List.cons_append, reports] at h
      obtain ⟨x, h1, h2⟩ := Option.bind_eq_some_iff.1 h
      exact ih x h2
  obtain ⟨r1, h1⟩ := key es {} h
  exact full_truth hf h1

/-- **C87 (partial), stale data.**  What is wrong after earlier reports is limited: the record of a double free or of a wild pointer
has the right kind, pointer and stack of the free, whatever came before; only the allocation stack, and for a wild pointer the
alignments, can belong to another error. -/
theorem stale_limited_partial (r0 : Rec) (p : Nat) (here : List Nat) :
    (∃ r a, report r0 (.doubleFree p here) = some r ∧ r.read = some ⟨p, .none, a, some (here.take 64)⟩) ∧
    (∃ r a x y, report r0 (.wild p here) = some r ∧ r.read = some ⟨p, .aligns x y, a, some (here.take 64)⟩) := by
  constructor
  · refine ⟨_, r0.aDepth.map fun n => r0.aStack.take n, rfl, ?_⟩
    simp only [Rec.double, Rec.putFree, Rec.read, Option.map_some, kMaxStackDepth, take_copy64]
  · refine ⟨_, r0.aDepth.map fun n => r0.aStack.take n, r0.actual, r0.expected, rfl, ?_⟩
    simp only [Rec.invalid, Rec.putFree, Rec.read, Option.map_some, kMaxStackDepth, take_copy64]

/-- **C87 (partial), when a report is defined.**  Exactly the reports of misaligned pointers that are multiples of 4 GiB are not. -/
theorem report_defined (r : Rec) (e : Error) :
    (report r e).isSome = true ↔
      match e with
      | .misaligned p _ _ | .misalignedGuarded p _ _ _ => ¬ 2 ^ 32 ∣ p
      | _ => True := by
  cases e <;> simp only [report, Option.isSome_some, Option.isSome_map, actualAlign_defined]

/-- A pointer that really is not aligned to what is expected, a power of two up to 4 GiB, is never one of these; and the alignment
recorded is then below the one expected. -/
theorem misaligned_below {p x e : Nat} (hx : x = 2 ^ e) (he : e ≤ 32) (hn : ¬ x ∣ p) :
    ∃ k, actualAlign p = some k ∧ k < x := by
  have h32 : ¬ 2 ^ 32 ∣ p := fun h => hn (by rw [hx]; exact Nat.dvd_trans (Nat.pow_dvd_pow 2 he) h)
  obtain ⟨k, hk⟩ := Option.isSome_iff_exists.1 ((actualAlign_defined p).2 h32)
  refine ⟨k, hk, ?_⟩
  obtain ⟨f, rfl, h1, -⟩ := actualAlign_ok hk
  rw [hx]
  apply Nat.pow_lt_pow_right (by decide)
  apply Classical.byContradiction
  intro hc
  exact hn (by rw [hx]; exact Nat.dvd_trans (Nat.pow_dvd_pow 2 (by omega)) h1)

/-- **C87 (partial), large blocks.**  Only the first page of a large block leads to its span (huge_page_aware_allocator.cc:122-126),
so a wrong pointer reported by tcmalloc.cc:732-735 lies inside that page, after its start.  Its report is always defined, and
records an alignment below that of a page. -/
theorem large_report_true_partial {start pageSize b p : Nat} (here : List Nat) (r : Rec) (hp : pageSize = 2 ^ b) (hb : b ≤ 32)
    (hs : pageSize ∣ start) (h1 : start < p) (h2 : p < start + pageSize) :
    ∃ r' k, report r (.misaligned p pageSize here) = some r' ∧ AlignmentOf p k ∧ k < pageSize ∧
      r'.read = some ⟨p, .aligns (some k) (some pageSize), none, some (here.take 64)⟩ := by
  have hn : ¬ pageSize ∣ p := by
    intro h
    have h3 : pageSize ∣ p - start := Nat.dvd_sub h hs
    have := Nat.le_of_dvd (by omega) h3
    omega
  obtain ⟨k, hk, hlt⟩ := misaligned_below hp hb hn
  have h3 : report r (.misaligned p pageSize here) =
      some (r.invalidAlign p (some k) (some pageSize) .none (here.take kMaxStackDepth)) := by simp only [report, hk, Option.map_some]
  obtain ⟨s, hr, k', hk', hs'⟩ := full_truth (e := .misaligned p pageSize here) trivial h3
  refine ⟨_, k, h3, actualAlign_ok hk, hlt, ?_⟩
  rw [hr, hs']
  have : k' = k := by
    rw [hs'] at hr
    simp only [Rec.read, Rec.invalidAlign, Rec.putAllocOpt, Rec.putFree, Option.some.injEq, Seen.mk.injEq, Details.aligns.injEq] at hr
    exact hr.2.1.1.symm
  rw [this]

/-- **C87, false of the code.**  Two threads report before the process is gone: the record of the second, a double free of 4096,
shows the stack that allocated the first one's block. -/
theorem stale_stack : (reports {} [.wrongFamily 64 .new .malloc [1, 2] [3], .doubleFree 4096 [4]]).bind Rec.read =
      some ⟨4096, .none, some [1, 2], some [4]⟩ ∧ ¬ Truth (.doubleFree 4096 [4]) ⟨4096, .none, some [1, 2], some [4]⟩ :=
  ⟨by decide +kernel, by simp [Truth]⟩

/-- **C87, false of the code.**  The same with a wild pointer: its record shows alignments of another pointer. -/
theorem stale_alignment : (reports {} [.misaligned 24 16 [3], .wild 4096 [4]]).bind Rec.read =
      some ⟨4096, .aligns (some 8) (some 16), none, some [4]⟩ ∧
    ¬ Truth (.wild 4096 [4]) ⟨4096, .aligns (some 8) (some 16), none, some [4]⟩ :=
  ⟨by decide +kernel, by simp [Truth]⟩

/-! ### The hypotheses are met -/

/-- A size-returning allocation of 100 bytes got 112; it is freed as 200 bytes. -/
example : ∃ r, report {} (.sampledSize 4096 200 100 (some 112) [1, 2] [3, 4, 5]) = some r ∧
    r.read = some ⟨4096, .sizes 200 200 100 112, some [1, 2], some [3, 4, 5]⟩ := ⟨_, rfl, by decide⟩

example : (reports {} [.doubleFree 8 [1], .misaligned 4104 16 [7]]).bind Rec.read =
    some ⟨4104, .aligns (some 8) (some 16), none, some [7]⟩ := by decide +kernel

/-- A pointer 24 bytes into a block of 8 KiB pages. -/
example : ∃ r' k, report {} (.misaligned 16408 8192 [1]) = some r' ∧ AlignmentOf 16408 k ∧ k < 8192 ∧
    r'.read = some ⟨16408, .aligns (some k) (some 8192), none, some ([1].take 64)⟩ :=
  large_report_true_partial (start := 16384) (b := 13) [1] {} rfl (by decide) (by decide) (by decide) (by decide)

example : ∃ k, actualAlign 4104 = some k ∧ k < 8192 := misaligned_below (e := 13) rfl (by decide) (by decide)

end Verif.Reports
