import Verif.Residency.Lemmas3
/-
What the memory-state queries report.  Theorems for C60 and C61.
-/
namespace Verif.Residency
open Verif.Bitmap (Word bitAt WF)
open Spec

theorem good_cases {α : Type} {A : Prop} {r : Out α} {Q : α → Prop} (h : Good A r Q) :
    r ≠ .ub ∧ (A → r ≠ .fail) ∧ ∀ a, r = .ok a → Q a := by
  cases r with
  | ub => exact h.elim
  | fail => exact ⟨by simp, fun a => (h a).elim, by simp⟩
  | ok a => exact ⟨by simp, by simp, fun b hb => by cases hb; exact h⟩

/-- The `j`th page the range touches. -/
theorem touches {P addr size j n : Nat} (hP : 0 < P) (h1 : 0 < size → (addr + size + P - 1) / P = addr / P + n)
    (h2 : size = 0 → n = 0) : j < n ↔ ∃ k, k < size ∧ (addr + k) / P = addr / P + j := by
  by_cases hs : size = 0
  · subst hs
    rw [h2 rfl]
    constructor
    · omega
    · rintro ⟨k, hk, _⟩; omega
  · have h1 := h1 (Nat.pos_of_ne_zero hs)
    have ha := Nat.div_add_mod addr P
    have hm := Nat.mod_lt addr hP
    rw [Nat.mul_comm] at ha
    constructor
    · intro hj
      have hle : (addr / P + j + 1) * P ≤ addr + size + P - 1 := by
        rw [← Nat.le_div_iff_mul_le hP]; omega
      have e1 : (addr / P + j + 1) * P = addr / P * P + j * P + P := by simp only [Nat.add_mul]; omega
      have e2 : (addr / P + j) * P = addr / P * P + j * P := Nat.add_mul _ _ _
      by_cases hj0 : j = 0
      · subst hj0
        exact ⟨0, Nat.pos_of_ne_zero hs, rfl⟩
      · have : P ≤ j * P := Nat.le_mul_of_pos_left P (Nat.pos_of_ne_zero hj0)
        refine ⟨(addr / P + j) * P - addr, by omega, ?_⟩
        have : addr + ((addr / P + j) * P - addr) = (addr / P + j) * P := by omega
        rw [this, Nat.mul_div_cancel _ hP]
    · rintro ⟨k, hk, hd⟩
      have hlt : addr / P + j < (addr + size + P - 1) / P := by
        rw [← hd]
        have : (addr + k) / P * P ≤ addr + k := Nat.div_mul_le_self _ _
        have : (addr + k) / P + 1 ≤ (addr + size + P - 1) / P := by
          rw [Nat.le_div_iff_mul_le hP, Nat.add_mul]; omega
        omega
      omega

/-- **C60.** Asking for the residency of any range of memory, whatever its alignment and size: the
call never overruns its buffer; it fails only if a system call fails; and what it returns is exactly
the number of bytes of the range on pages in memory, the number on pages in swap, and for each of
the first 512 pages the range touches whether it is in memory. -/
theorem residency_exact (P : Nat) (hP : 0 < P) (F : File) (fd : Fd) (addr size : Nat) :
    get P F fd addr size ≠ .ub ∧
    ((∀ n, F.ok n = true) → get P F fd addr size ≠ .fail) ∧
    ∀ info fd', get P F fd addr size = .ok (info, fd') →
      info.resident = bytesOn P (Present F.entry) addr size ∧
      info.swapped = bytesOn P (Swapped F.entry) addr size ∧
      ∀ j, bitAt info.bits j = true ↔
        j < 512 ∧ (∃ k, k < size ∧ (addr + k) / P = addr / P + j) ∧ Present F.entry (addr / P + j) = true := by
  obtain ⟨h1, h2, h3⟩ := good_cases (get_good hP F fd addr size)
  refine ⟨h1, h2, ?_⟩
  intro info fd' h
  obtain ⟨n, n1, n2, a⟩ := h3 _ h
  refine ⟨a.resident, a.swapped, fun j => ?_⟩
  rw [a.bits, Bool.and_eq_true_iff, Bool.and_eq_true_iff, decide_eq_true_iff, decide_eq_true_iff,
    touches hP n1 n2, and_comm (a := ∃ k, _), and_assoc]
  rfl

/-- **C60.** For an aligned hugepage of `K` native pages: a page is reported unbacked exactly if it is
neither in memory nor in swap, and swapped exactly if it is not in memory but in swap. -/
theorem bitmaps_exact (P K : Nat) (hP : 0 < P) (hK : 0 < K) (hK2 : K ≤ 512) (F : File) (fd : Fd)
    (hp : Nat) :
    getBitmaps P (K * P) F fd (hp * (K * P)) ≠ .ub ∧
    ((∀ n, F.ok n = true) → getBitmaps P (K * P) F fd (hp * (K * P)) ≠ .fail) ∧
    ∀ r fd', getBitmaps P (K * P) F fd (hp * (K * P)) = .ok (r, fd') → ∀ j,
      (bitAt r.unbacked j = true ↔
        j < K ∧ Present F.entry (hp * K + j) = false ∧ Swapped F.entry (hp * K + j) = false) ∧
      (bitAt r.swapped j = true ↔
        j < K ∧ Present F.entry (hp * K + j) = false ∧ Swapped F.entry (hp * K + j) = true) := by
  obtain ⟨h1, h2, h3⟩ := good_cases (getBitmaps_good hP hK hK2 F fd hp)
  refine ⟨h1, h2, ?_⟩
  intro r fd' h j
  have a := h3 _ h
  simp only at a
  rw [a.unbacked, a.swapped]
  simp [Bool.and_eq_true_iff, and_assoc]

/-- **C60.** An address that is not the start of a hugepage is refused. -/
theorem bitmaps_unaligned (P H : Nat) (F : File) (fd : Fd) (addr : Nat) (h : addr % H ≠ 0) :
    getBitmaps P H F fd addr = .fail := by
  unfold getBitmaps
  have : addr / H * H ≠ addr := by
    intro e
    apply h
    rw [← e, Nat.mul_mod_left]
  rw [if_pos this]

/-- **C60.** Asking `mincore` for the number of resident bytes of any range: never undefined
behaviour; if every system call succeeds the answer is exactly the number of bytes of the range on
pages in memory, and otherwise that number or 0. -/
theorem incore_exact (P : Nat) (hP : 0 < P) (C : Core) (addr size : Nat) :
    ∃ r, residence P C addr size = some r ∧
      ((∀ n, C.ok n = true) → r = bytesOn P (InCore C.vec) addr size) ∧
      (r = bytesOn P (InCore C.vec) addr size ∨ r = 0) := by
  obtain ⟨h1, h2, h3⟩ := good_cases (residenceImpl_good hP C addr size)
  unfold residence
  cases h : residenceImpl P C addr size with
  | ub => exact absurd h h1
  | fail => exact ⟨0, rfl, fun a => absurd h (h2 a), Or.inr rfl⟩
  | ok r => exact ⟨r, rfl, fun _ => h3 r h, Or.inl (h3 r h)⟩

/-- **C61.** Asking for the staleness of any range of memory in which every compound page is an aligned
hugepage: never undefined behaviour; it fails only if a system call fails or some compound page is not a
transparent hugepage; and what it returns is exactly the number of bytes of the range on stale pages and
on locked pages, where the pages of a hugepage are what its first page is.  The scan period is given
exactly when some byte is stale. -/
theorem flags_exact (P K scan : Nat) (hP : 0 < P) (hK : 0 < K) (F : File) (c : Compound K F.entry)
    (fd : Fd) (addr size : Nat) :
    flagsGet P (K * P) scan F fd addr size ≠ .ub ∧
    ((∀ n, F.ok n = true) → AllThp F.entry → flagsGet P (K * P) scan F fd addr size ≠ .fail) ∧
    ∀ s, flagsGet P (K * P) scan F fd addr size = .ok s →
      s.stale = bytesOn P (Stale K F.entry) addr size ∧
      s.locked = bytesOn P (Locked K F.entry) addr size ∧
      s.scanSeconds = if 0 < bytesOn P (Stale K F.entry) addr size then scan else 0 := by
  obtain ⟨h1, h2, h3⟩ := good_cases (flagsGet_good hP hK scan F c fd addr size)
  refine ⟨h1, fun a b => h2 ⟨a, b⟩, ?_⟩
  intro s h
  have a := h3 _ h
  exact ⟨a.stale, a.locked, a.scan⟩

/-- **C61.** For an aligned hugepage of `K` native pages, bit `j` of the stale bitmap is set exactly if its
`j`th page is stale. -/
theorem stale_bitmap_exact (P K : Nat) (hP : 0 < P) (hK : 0 < K) (hK2 : K ≤ 512) (F : File)
    (c : Compound K F.entry) (fd : Fd) (hp : Nat) :
    staleBitmap P (K * P) F fd (hp * (K * P)) ≠ .ub ∧
    ((∀ n, F.ok n = true) → staleBitmap P (K * P) F fd (hp * (K * P)) ≠ .fail) ∧
    ∀ b, staleBitmap P (K * P) F fd (hp * (K * P)) = .ok b → ∀ j,
      (bitAt b j = true ↔ j < K ∧ Stale K F.entry (hp * K + j) = true) := by
  obtain ⟨h1, h2, h3⟩ := good_cases (staleBitmap_good hP hK hK2 F c fd hp)
  refine ⟨h1, h2, ?_⟩
  intro b h j
  have a := h3 _ h
  rw [a.bits]
  simp [Bool.and_eq_true_iff]

/-- **C61.** Whether an address is on a hugepage: the answer is that of the page's own flags (bit 22 or
bit 17); if the entry cannot be read there is no answer, and if the file cannot be positioned the answer
is no. -/
theorem backed_exact (P : Nat) (hP : 0 < P) (F : File) (fd : Fd) (addr : Nat) :
    isHugepageBacked P F fd addr =
      if F.ok fd.n = false then some false
      else if F.ok (fd.n + 1) = false then none
      else some ((F.entry (addr / P)).getLsbD 22 || (F.entry (addr / P)).getLsbD 17) := by
  unfold isHugepageBacked seek readOne read basePage
  rw [Nat.mul_div_cancel _ hP]
  cases h1 : F.ok fd.n
  · simp
  · cases h2 : F.ok (fd.n + 1)
    · simp [kEntriesInBuf, h2, List.range_one]
    · simp [kEntriesInBuf, h2, List.range_one, isHugepage, pageThp_eq, pageHugetlbfs_eq]

/-- **C60/C61.** What the hugepage treatment records for the `M` allocator pages of a hugepage when an
allocator page is `r` native pages: a page is recorded unbacked exactly if *all* its native pages are
neither in memory nor in swap, swapped exactly if *some* native page is in swap, and stale exactly if
*some* native page is. -/
theorem treatment_exact (P M r : Nat) (hP : 0 < P) (hM : 0 < M) (hr : 0 < r) (hK : r * M ≤ 512)
    (F G : File) (c : Compound (r * M) G.entry) (fd gd fd' : Fd) (hp : Nat) (bm : Pair) (st : List Word)
    (h1 : getBitmaps P (r * M * P) F fd (hp * (r * M * P)) = .ok (bm, fd'))
    (h2 : staleBitmap P (r * M * P) G gd (hp * (r * M * P)) = .ok st) :
    ∃ u s t, treatUnbacked P (r * M * P) M bm = some u ∧ treatSwapped P (r * M * P) M bm = some s ∧
      treatStale P (r * M * P) M st = some t ∧
      ∀ d, d < M →
        (bitAt u d = true ↔ ∀ k, k < r → Present F.entry (hp * (r * M) + (r * d + k)) = false ∧
          Swapped F.entry (hp * (r * M) + (r * d + k)) = false) ∧
        (bitAt s d = true ↔ ∃ k, k < r ∧ Present F.entry (hp * (r * M) + (r * d + k)) = false ∧
          Swapped F.entry (hp * (r * M) + (r * d + k)) = true) ∧
        (bitAt t d = true ↔ ∃ k, k < r ∧ Stale (r * M) G.entry (hp * (r * M) + (r * d + k)) = true) := by
  have hrM : 0 < r * M := Nat.mul_pos hr hM
  have a := (good_cases (getBitmaps_good hP hrM hK F fd hp)).2.2 _ h1
  have b := (good_cases (staleBitmap_good hP hrM hK G c gd hp)).2.2 _ h2
  simp only at a
  obtain ⟨u, u1, _, u3⟩ := Bitmap.scale_contract 512 M r hr hM bm.unbacked a.wu hK true
  obtain ⟨s, s1, _, s3⟩ := Bitmap.scale_contract 512 M r hr hM bm.swapped a.ws hK false
  obtain ⟨t, t1, _, t3⟩ := Bitmap.scale_contract 512 M r hr hM st b.wf hK false
  have e : r * M * P / P = r * M := Nat.mul_div_cancel _ hP
  refine ⟨u, s, t, ?_, ?_, ?_, ?_⟩
  · unfold treatUnbacked; rw [e]; exact u1
  · unfold treatSwapped; rw [e]; exact s1
  · unfold treatStale; rw [e]; exact t1
  · intro d hd
    have lt : ∀ k, k < r → r * d + k < r * M := by
      intro k hk
      have : r * (d + 1) ≤ r * M := Nat.mul_le_mul_left _ hd
      rw [Nat.mul_add] at this; omega
    refine ⟨?_, ?_, ?_⟩
    · rw [u3 d hd]
      simp only [if_true]
      constructor
      · intro h k hk
        have := h k hk
        rw [a.unbacked] at this
        simpa [lt k hk] using this
      · intro h k hk
        rw [a.unbacked]
        have := h k hk
        simp [lt k hk, this.1, this.2]
    · rw [s3 d hd]
      simp only [Bool.false_eq_true, if_false]
      constructor
      · rintro ⟨k, hk, h⟩
        rw [a.swapped] at h
        exact ⟨k, hk, by simpa [lt k hk] using h⟩
      · rintro ⟨k, hk, h⟩
        refine ⟨k, hk, ?_⟩
        rw [a.swapped]
        simp [lt k hk, h.1, h.2]
    · rw [t3 d hd]
      simp only [Bool.false_eq_true, if_false]
      constructor
      · rintro ⟨k, hk, h⟩
        rw [b.bits] at h
        exact ⟨k, hk, by simpa [lt k hk] using h⟩
      · rintro ⟨k, hk, h⟩
        refine ⟨k, hk, ?_⟩
        rw [b.bits]
        simp [lt k hk, h]

/-- **C60.** The same when a native page is `r` allocator pages (64 KiB native pages): an allocator page is
recorded as its native page is. -/
theorem treatment_exact_large (P K r : Nat) (hP : 0 < P) (hK : 0 < K) (hr : 0 < r) (hK2 : K ≤ 512)
    (F : File) (fd fd' : Fd) (hp : Nat) (bm : Pair)
    (h1 : getBitmaps P (K * P) F fd (hp * (K * P)) = .ok (bm, fd')) :
    ∃ u s, treatUnbacked P (K * P) (r * K) bm = some u ∧ treatSwapped P (K * P) (r * K) bm = some s ∧
      ∀ d, d < r * K →
        (bitAt u d = true ↔ Present F.entry (hp * K + d / r) = false ∧
          Swapped F.entry (hp * K + d / r) = false) ∧
        (bitAt s d = true ↔ Present F.entry (hp * K + d / r) = false ∧
          Swapped F.entry (hp * K + d / r) = true) := by
  have a := (good_cases (getBitmaps_good hP hK hK2 F fd hp)).2.2 _ h1
  simp only at a
  obtain ⟨u, u1, _, u3⟩ := Bitmap.scale_expand 512 K r hr hK bm.unbacked a.wu hK2 true
  obtain ⟨s, s1, _, s3⟩ := Bitmap.scale_expand 512 K r hr hK bm.swapped a.ws hK2 false
  have e : K * P / P = K := Nat.mul_div_cancel _ hP
  refine ⟨u, s, ?_, ?_, ?_⟩
  · unfold treatUnbacked; rw [e]; exact u1
  · unfold treatSwapped; rw [e]; exact s1
  · intro d hd
    have lt : d / r < K := by rw [Nat.div_lt_iff_lt_mul hr, Nat.mul_comm]; exact hd
    rw [u3 d hd, s3 d hd, a.unbacked, a.swapped]
    simp [lt]

/-! ### Concrete cases

Hugepages of four 4096-byte pages.  Pages 4 to 7 are one transparent hugepage, stale; page 1 is stale
on its own and page 9 is locked.  Pages 0 to 3 are in memory except page 2, which is in swap; pages from
8 on are not backed. -/

def demoFlags (p : Nat) : Word :=
  if p = 4 then 0x100000408000#64
  else if 4 < p ∧ p < 8 then 0x410000#64
  else if p = 1 then 0x100000000000#64
  else if p = 9 then 0x200000000#64
  else 0#64

def demoMap (p : Nat) : Word :=
  if p = 2 then 1#64 <<< 62 else if p < 8 then 1#64 <<< 63 else 0#64

def demoF : File := ⟨demoFlags, fun _ => true⟩
def demoM : File := ⟨demoMap, fun _ => true⟩

theorem demo_head (p : Nat) : Head demoFlags p = true ↔ p = 4 := by
  unfold Head demoFlags
  constructor
  · intro h
    split at h
    · assumption
    · split at h
      · exact absurd h (by decide)
      · split at h
        · exact absurd h (by decide)
        · split at h
          · exact absurd h (by decide)
          · exact absurd h (by decide)
  · intro h; subst h; decide

theorem demo_tail (p : Nat) : Tail demoFlags p = true ↔ 4 < p ∧ p < 8 := by
  unfold Tail demoFlags
  constructor
  · intro h
    split at h
    · exact absurd h (by decide)
    · split at h
      · assumption
      · split at h
        · exact absurd h (by decide)
        · split at h
          · exact absurd h (by decide)
          · exact absurd h (by decide)
  · intro h
    rw [if_neg (by omega), if_pos h]
    decide

theorem demo_compound : Compound 4 demoFlags where
  excl p h := by
    rw [demo_head] at h; subst h; decide
  head p h := by
    rw [demo_head] at h; subst h
    refine ⟨by decide, fun j h1 h2 => ?_⟩
    rw [demo_tail]; omega
  tail p h := by
    rw [demo_tail] at h; rw [demo_head]
    omega

theorem demo_thp : AllThp demoFlags := by
  intro p h
  rw [demo_head, demo_tail] at h
  unfold demoFlags
  rcases h with h | h
  · rw [if_pos h]; decide
  · rw [if_neg (by omega), if_pos h]; decide

/-- The range of 18000 bytes from 8000 on, pages 1 to 6: 192 bytes of page 1, then the whole of pages 2, 3, 4
and 5, and 1424 bytes of page 6. -/
example : bytesOn 4096 (Stale 4 demoFlags) 8000 18000 = 192 + 4096 + 4096 + 1424 := by
  decide +kernel

example : ∃ s, flagsGet 4096 (4 * 4096) 120 demoF ⟨0, 0⟩ 8000 18000 = .ok s ∧ s.stale = 9808 ∧
    s.locked = 0 ∧ s.scanSeconds = 120 := by
  have h := flags_exact 4096 4 120 (by decide) (by decide) demoF demo_compound ⟨0, 0⟩ 8000 18000
  cases e : flagsGet 4096 (4 * 4096) 120 demoF ⟨0, 0⟩ 8000 18000 with
  | ub => exact absurd e h.1
  | fail => exact absurd e (h.2.1 (fun _ => rfl) demo_thp)
  | ok s =>
    have v : bytesOn 4096 (Stale 4 demoFlags) 8000 18000 = 9808 := by decide +kernel
    have v2 : bytesOn 4096 (Locked 4 demoFlags) 8000 18000 = 0 := by decide +kernel
    obtain ⟨a1, a2, a3⟩ := h.2.2 s e
    refine ⟨s, rfl, a1.trans v, a2.trans v2, a3.trans ?_⟩
    show (if 0 < bytesOn 4096 (Stale 4 demoFlags) 8000 18000 then 120 else 0) = 120
    rw [v]; rfl

/-- The same range in the page map: page 2 is in swap. -/
example : ∃ info fd, get 4096 demoM ⟨0, 0⟩ 8000 18000 = .ok (info, fd) ∧ info.resident = 13904 ∧
    info.swapped = 4096 := by
  have h := residency_exact 4096 (by decide) demoM ⟨0, 0⟩ 8000 18000
  cases e : get 4096 demoM ⟨0, 0⟩ 8000 18000 with
  | ub => exact absurd e h.1
  | fail => exact absurd e (h.2.1 (fun _ => rfl))
  | ok r =>
    obtain ⟨info, fd⟩ := r
    have v : bytesOn 4096 (Present demoMap) 8000 18000 = 13904 := by decide +kernel
    have v2 : bytesOn 4096 (Swapped demoMap) 8000 18000 = 4096 := by decide +kernel
    obtain ⟨a1, a2, _⟩ := h.2.2 info fd e
    exact ⟨info, fd, rfl, a1.trans v, a2.trans v2⟩

/-- Both bitmaps of the first hugepage can be read, so `treatment_exact` applies: two allocator pages of two
native pages each. -/
example : (∃ bm fd', getBitmaps 4096 (2 * 2 * 4096) demoM ⟨0, 0⟩ (0 * (2 * 2 * 4096)) = .ok (bm, fd')) ∧
    ∃ st, staleBitmap 4096 (2 * 2 * 4096) demoF ⟨0, 0⟩ (0 * (2 * 2 * 4096)) = .ok st := by
  constructor
  · have h := bitmaps_exact 4096 (2 * 2) (by decide) (by decide) (by decide) demoM ⟨0, 0⟩ 0
    cases e : getBitmaps 4096 (2 * 2 * 4096) demoM ⟨0, 0⟩ (0 * (2 * 2 * 4096)) with
    | ub => exact absurd e h.1
    | fail => exact absurd e (h.2.1 (fun _ => rfl))
    | ok r => exact ⟨r.1, r.2, rfl⟩
  · have h := stale_bitmap_exact 4096 (2 * 2) (by decide) (by decide) (by decide) demoF demo_compound ⟨0, 0⟩ 0
    cases e : staleBitmap 4096 (2 * 2 * 4096) demoF ⟨0, 0⟩ (0 * (2 * 2 * 4096)) with
    | ub => exact absurd e h.1
    | fail => exact absurd e (h.2.1 (fun _ => rfl))
    | ok r => exact ⟨r, rfl⟩

/-- A kernel with a smaller compound page: pages 2 and 3 form a transparent compound page of two pages in a
hugepage of four, and it is stale. -/
def smallFlags (p : Nat) : Word :=
  if p = 2 then 0x100000408000#64 else if p = 3 then 0x410000#64 else 0#64

/-- **C61.** The assumption that compound pages are whole hugepages is needed: the flags of page 3 are taken from page
0, so the second half of a stale compound page is reported as not stale. -/
theorem small_compound_wrong :
    flagsGet 4096 (4 * 4096) 0 ⟨smallFlags, fun _ => true⟩ ⟨0, 0⟩ (3 * 4096) 4096 = .ok {} ∧
    flagsGet 4096 (4 * 4096) 0 ⟨smallFlags, fun _ => true⟩ ⟨0, 0⟩ (2 * 4096) 4096 =
      .ok ⟨4096, 0, 0⟩ := by
  constructor <;> rfl

end Verif.Residency
