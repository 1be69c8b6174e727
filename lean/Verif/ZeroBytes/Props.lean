import Verif.ZeroBytes.Lemmas
/-! C77: the estimate of zero bytes in heap profiles. -/
namespace Verif.ZeroBytes
open Verif.Bitmap Verif.Residency Verif.Residency.Spec

variable {P addr size cap : Nat} {bits : List Word}

theorem pages_eq (hP : 0 < P) : ∃ pages, (endPage P addr size - basePage P addr) / P = pages ∧
    addr + size ≤ basePage P addr + pages * P ∧ ∀ i, i < pages → basePage P addr + i * P ≤ addr + size := by
  refine ⟨_, rfl, ?_⟩
  unfold endPage basePage
  rw [← Nat.sub_mul, Nat.mul_div_cancel _ hP]
  have h1 : addr / P ≤ (addr + size + P - 1) / P := Nat.div_le_div_right (by omega)
  have h3 : addr + size ≤ (addr + size + P - 1) / P * P := by
    have := Nat.lt_div_mul_add hP (a := addr + size + P - 1)
    omega
  constructor
  · rw [← Nat.add_mul, Nat.add_sub_cancel' h1]
    exact h3
  · intro i hi
    rw [← Nat.add_mul]
    have h4 : addr / P + i + 1 ≤ (addr + size + P - 1) / P := by omega
    have h5 := (Nat.le_div_iff_mul_le hP).1 h4
    rw [Nat.add_mul, Nat.one_mul] at h5
    omega

theorem chunks_spec (hP : 0 < P) (hw : WF 512 bits) : ∃ chunks total,
    copyLoop P addr size bits (min ((endPage P addr size - basePage P addr) / P) kMaxResidencyBits) cap 0 0 [] = .ok (chunks, total) ∧
      chunks.flatMap addrs = (residentBytes P bits addr size).take cap ∧ total = (chunks.flatMap addrs).length ∧
      (∀ c ∈ chunks, addr ≤ c.start ∧ c.start + c.len ≤ addr + size) := by
  obtain ⟨pages, e, h1, h2⟩ := pages_eq (addr := addr) (size := size) hP
  rw [e]
  have h3 : pos P addr size 0 = addr := by
    have := base_le (P := P) (addr := addr)
    unfold pos
    omega
  obtain ⟨c, t, q1, q2, q3, q4⟩ := copyLoop_spec (cap := cap) hP hw (scan := min pages kMaxResidencyBits) rfl h1 h2 _ 0 0 []
    (Nat.lt_succ_self _) (Or.inr rfl) (by rw [h3]; simp [res]) (by simp) (by simp)
  refine ⟨c, t, q1, ?_, q3, q4⟩
  rw [q2]
  unfold res residentBytes
  rw [Nat.add_sub_cancel_left]

theorem safeCopyLoop_spec (mem : Nat → Nat) (answer : Nat → Nat → Int) : ∀ (m : Nat) (chunks : List Chunk) (call : Nat) (dst : List Nat),
    chunks.length ≤ m → dst.length + (chunks.flatMap addrs).length ≤ cap →
    (safeCopyLoop mem answer cap chunks call dst = .ok (dst ++ (chunks.flatMap addrs).map mem) ∨
     (safeCopyLoop mem answer cap chunks call dst = .fail ∧ ∃ n b, answer n b ≠ (b : Int))) := by
  intro m
  induction m with
  | zero =>
    intro chunks call dst h1 h2
    have : chunks = [] := List.length_eq_zero_iff.1 (by omega)
    subst this
    rw [safeCopyLoop]
    simp
  | succ m ih =>
    intro chunks call dst h1 h2
    rw [safeCopyLoop]
    by_cases hc : chunks = []
    · subst hc; simp
    · rw [dif_neg hc]
      have hpos := List.length_pos_iff.2 hc
      generalize hk : min chunks.length kMaxIov = k
      have hk1 : 0 < k := by unfold kMaxIov at hk; omega
      have hl : ∀ L : List Chunk, (L.map Chunk.len).sum = (L.flatMap addrs).length := by
        intro L
        induction L with
        | nil => rfl
        | cons c L ih => rw [List.map_cons, List.sum_cons, List.flatMap_cons, List.length_append, ih, addrs, List.length_range']
      have hm : ∀ L : List Chunk, L.flatMap (fun c => (List.range' c.start c.len).map mem) = (L.flatMap addrs).map mem := by
        intro L
        induction L with
        | nil => rfl
        | cons c L ih => simp only [List.flatMap_cons, List.map_append, ih]; rfl
      have hsplit : chunks.flatMap addrs = (chunks.take k).flatMap addrs ++ (chunks.drop k).flatMap addrs := by
        rw [← List.flatMap_append, List.take_append_drop]
      dsimp only
      rw [hl, hm]
      rw [hsplit, List.length_append] at h2
      rw [if_neg (by omega)]
      split
      · next ha => exact Or.inr ⟨rfl, _, _, ha⟩
      · rw [hsplit, List.map_append, ← List.append_assoc]
        exact ih (chunks.drop k) (call + 1) _ (by rw [List.length_drop]; omega) (by rw [List.length_append, List.length_map]; omega)

/-- C77: the bytes looked at are the first of the block's resident bytes (on its first 512 pages), as many as fit in the
buffer; nothing outside the block is read and the buffer is not overrun; only the kernel's refusal to copy makes it
fail. -/
theorem sample_exact (hP : 0 < P) (mem : Nat → Nat) (answer : Nat → Nat → Int) (info : Info) (hw : WF 512 info.bits) :
    (∃ chunks, copyResident P mem answer cap addr size info =
        .ok (chunks, ((residentBytes P info.bits addr size).take cap).map mem) ∧
      (∀ c ∈ chunks, addr ≤ c.start ∧ c.start + c.len ≤ addr + size) ∧
      ∀ a, (∃ c ∈ chunks, c.start ≤ a ∧ a < c.start + c.len) → a ∈ residentBytes P info.bits addr size) ∨
    (copyResident P mem answer cap addr size info = .fail ∧ ∃ n b, answer n b ≠ (b : Int)) := by
  obtain ⟨chunks, total, e, h1, h2, h3⟩ := chunks_spec (P := P) (addr := addr) (size := size) (cap := cap) hP hw
  have hmem : ∀ a, (∃ c ∈ chunks, c.start ≤ a ∧ a < c.start + c.len) → a ∈ residentBytes P info.bits addr size := by
    rintro a ⟨c, hc, ha1, ha2⟩
    have : a ∈ chunks.flatMap addrs := List.mem_flatMap.2 ⟨c, hc, by unfold addrs; rw [List.mem_range'_1]; omega⟩
    rw [h1] at this
    exact List.mem_of_mem_take this
  unfold copyResident
  dsimp only
  rw [e]
  dsimp only
  by_cases ht : total > 0
  · rw [if_pos ht]
    have hne : chunks ≠ [] := by
      intro hc
      rw [hc] at h2
      simp at h2
      omega
    unfold safeCopy
    rw [if_neg hne]
    have hlen : (chunks.flatMap addrs).length ≤ cap := by rw [h1, List.length_take]; omega
    rcases safeCopyLoop_spec mem answer _ chunks 0 [] (Nat.le_refl _) (by simpa using hlen) with h | ⟨h, hf⟩
    · rw [h]
      refine Or.inl ⟨chunks, ?_, h3, hmem⟩
      rw [List.nil_append, h1]
    · rw [h]
      exact Or.inr ⟨rfl, hf⟩
  · rw [if_neg ht]
    refine Or.inl ⟨chunks, ?_, h3, hmem⟩
    have : (chunks.flatMap addrs) = [] := List.length_eq_zero_iff.1 (by omega)
    rw [← h1, this]
    rfl

/-! ### The estimate -/

theorem floor_le_nat {x : Rat} {n : Nat} (h : x ≤ n) : x.floor.toNat ≤ n := by
  have h1 : x.floor ≤ ((n : Int) : Rat).floor := Rat.floor_monotone h
  rw [Rat.floor_intCast] at h1
  omega

theorem floor_natCast (n : Nat) : (n : Rat).floor.toNat = n := by
  have h1 : ((n : Int) : Rat).floor = n := Rat.floor_intCast _
  have h2 : (n : Rat).floor = n := h1
  rw [h2]; rfl

theorem toNat_le {x : Rat} (h : 0 ≤ x) : (x.floor.toNat : Rat) ≤ x := by
  have h0 : (0 : Int) ≤ x.floor := Rat.le_floor_iff.2 h
  have h1 := Rat.floor_le x
  have h2 : ((x.floor.toNat : Int) : Rat) = x.floor := by rw [Int.toNat_of_nonneg h0]
  have h3 : (x.floor.toNat : Rat) = x.floor := h2
  rw [h3]; exact h1

theorem lt_toNat {x : Rat} (h : 0 ≤ x) : x < (x.floor.toNat : Rat) + 1 := by
  have h0 : (0 : Int) ≤ x.floor := Rat.le_floor_iff.2 h
  have h1 := Rat.lt_floor_add_one x
  have h2 : ((x.floor.toNat : Int) : Rat) = x.floor := by rw [Int.toNat_of_nonneg h0]
  have h3 : (x.floor.toNat : Rat) = x.floor := h2
  rw [h3]
  rw [Rat.intCast_add] at h1
  exact h1

/-- The rounded share of the backed bytes. -/
theorem est_bounds {rnd : Rat → Rat} (hr : Rounding rnd) {z n b : Nat} (hn : 0 < n) (hz : z ≤ n) (hn2 : n ≤ 2 ^ 53) (hb : b ≤ 2 ^ 48) :
    (rnd (rnd (rnd z / rnd n) * rnd b)).floor.toNat ≤ b ∧
    (z = n → (rnd (rnd (rnd z / rnd n) * rnd b)).floor.toNat = b) ∧
    (z = 0 → (rnd (rnd (rnd z / rnd n) * rnd b)).floor.toNat = 0) ∧
    (rnd (rnd (rnd z / rnd n) * rnd b)).floor.toNat * n < z * b + n ∧
    z * b < ((rnd (rnd (rnd z / rnd n) * rnd b)).floor.toNat + 2) * n := by
  have hb53 : b ≤ 2 ^ 53 := by omega
  rw [hr.nat z (by omega), hr.nat n hn2, hr.nat b hb53]
  have hn0 : (0 : Rat) < n := by exact_mod_cast hn
  have hz0 : (0 : Rat) ≤ z := by exact_mod_cast Nat.zero_le z
  have hb0 : (0 : Rat) ≤ b := by exact_mod_cast Nat.zero_le b
  have hbc : (b : Rat) ≤ 2 ^ 48 := by exact_mod_cast hb
  have hzn : (z : Rat) ≤ n := by exact_mod_cast hz
  generalize hq : (z : Rat) / n = q
  have hqn : q * n = z := by rw [← hq]; grind
  have hq0 : 0 ≤ q := by
    apply Rat.le_of_mul_le_mul_right _ hn0
    rw [hqn]; grind
  have hq1 : q ≤ 1 := by
    apply Rat.le_of_mul_le_mul_right _ hn0
    rw [hqn]; grind
  have r1 : rnd 1 = 1 := by have := hr.nat 1 (by omega); simpa using this
  have r0 : rnd 0 = 0 := by have := hr.nat 0 (by omega); simpa using this
  have hx1 : rnd q ≤ 1 := by rw [← r1]; exact hr.mono _ _ hq1
  have hx0 : 0 ≤ rnd q := by rw [← r0]; exact hr.mono _ _ hq0
  have hlo := hr.low q hq0
  have hhi := hr.high q hq0
  generalize hx : rnd q = x at *
  have hy0 : 0 ≤ x * b := Rat.mul_nonneg hx0 hb0
  have hyb : x * b ≤ b := by
    have := Rat.mul_le_mul_of_nonneg_right hx1 hb0
    rwa [Rat.one_mul] at this
  have rb : rnd b = b := hr.nat b hb53
  have hw1 : rnd (x * b) ≤ b := by
    have := hr.mono _ _ hyb
    rwa [rb] at this
  have hw0 : 0 ≤ rnd (x * b) := by rw [← r0]; exact hr.mono _ _ hy0
  have hlo2 := hr.low _ hy0
  have hhi2 := hr.high _ hy0
  have hyhi := Rat.mul_le_mul_of_nonneg_right hhi hb0
  have hylo := Rat.mul_le_mul_of_nonneg_right hlo hb0
  refine ⟨floor_le_nat hw1, ?_, ?_, ?_, ?_⟩
  · intro h
    subst h
    have : q = 1 := by
      have h : q * z = 1 * z := by rw [hqn, Rat.one_mul]
      grind
    have hx' : x = 1 := by rw [← hx, this, r1]
    rw [hx', Rat.one_mul, rb, floor_natCast]
  · intro h
    subst h
    have : q = 0 := by rw [← hq]; grind
    have hx' : x = 0 := by rw [← hx, this, r0]
    rw [hx', Rat.zero_mul, r0]; rfl
  · have h1 := toNat_le hw0
    generalize (rnd (x * b)).floor.toNat = e at *
    have h2 : (e : Rat) < q * b + 1 := by grind
    have h3 : (e : Rat) * n < (q * b + 1) * n := Rat.mul_lt_mul_of_pos_right h2 hn0
    have h4 : (q * b + 1) * n = z * b + n := by rw [← hqn]; grind
    rw [h4] at h3
    exact_mod_cast h3
  · have h1 := lt_toNat hw0
    generalize (rnd (x * b)).floor.toNat = e at *
    have h2 : q * b < (e : Rat) + 2 := by grind
    have h3 : q * b * n < ((e : Rat) + 2) * n := Rat.mul_lt_mul_of_pos_right h2 hn0
    have h4 : q * b * n = z * b := by rw [← hqn]; grind
    rw [h4] at h3
    exact_mod_cast h3

/-- C77: the estimate never exceeds the size of the block; it is the whole block if all sampled bytes are zero, the part
without memory if none is, and in between the share of zero bytes of the sample, to within one byte. -/
theorem estimate_spec {rnd : Rat → Rat} (hr : Rounding rnd) {info : Info} {sample : List Nat} (hs : size ≤ 2 ^ 48) (hl : sample.length ≤ 2 ^ 53) :
    estimate rnd size info sample ≤ size ∧
    (sample = [] → estimate rnd size info sample = size - min size (info.resident + info.swapped)) ∧
    (sample ≠ [] → ∃ e, estimate rnd size info sample = size - min size (info.resident + info.swapped) + e ∧
      ((∀ x ∈ sample, x = 0) → e = min size (info.resident + info.swapped)) ∧ ((∀ x ∈ sample, x ≠ 0) → e = 0) ∧
      e * sample.length < sample.count 0 * min size (info.resident + info.swapped) + sample.length ∧
      sample.count 0 * min size (info.resident + info.swapped) < (e + 2) * sample.length) := by
  unfold estimate
  dsimp only
  generalize hB : min size (info.resident + info.swapped) = b
  by_cases h : sample = []
  · rw [if_pos h]
    exact ⟨by omega, fun _ => rfl, fun hc => absurd h hc⟩
  · rw [if_neg h]
    have hn := List.length_pos_iff.2 h
    obtain ⟨h1, h2, h3, h4, h5⟩ := est_bounds hr (z := sample.count 0) (n := sample.length) (b := b) hn List.count_le_length hl (by omega)
    refine ⟨by omega, fun hc => absurd hc h, fun _ => ⟨_, rfl, fun ha => h2 ?_, fun ha => h3 ?_, h4, h5⟩⟩
    · rw [List.count_eq_length]
      exact fun x hx => (ha x hx).symm
    · rw [List.count_eq_zero]
      exact fun hx => ha 0 hx rfl

/-- The bytes sampled of a block, given the kernel's page map: the first, up to `cap`, that lie on the block's first 512
pages and are in memory. -/
def sampleOf (P : Nat) (pm : Nat → Word) (mem : Nat → Nat) (cap addr size : Nat) : List Nat :=
  (((List.range' addr size).filter (fun a => decide (a / P - addr / P < 512) && Present pm (a / P))).take cap).map mem

/-- The bytes of the block that the kernel's page map says to have memory or swap, as far as the page map was asked: for
the first `allocated` bytes from the block's start, cut to the size of the block. -/
def backedOf (P : Nat) (pm : Nat → Word) (addr size allocated : Nat) : Nat :=
  min size (bytesOn P (Present pm) addr allocated + bytesOn P (Swapped pm) addr allocated)

theorem residentBytes_eq (hP : 0 < P) {F : File} {fd fd' : Fd} {allocated : Nat} {info : Info} (hle : size ≤ allocated)
    (hg : Residency.get P F fd addr allocated = .ok (info, fd')) : WF 512 info.bits ∧
    residentBytes P info.bits addr size =
      (List.range' addr size).filter (fun a => decide (a / P - addr / P < 512) && Present F.entry (a / P)) ∧
    info.resident + info.swapped = bytesOn P (Present F.entry) addr allocated + bytesOn P (Swapped F.entry) addr allocated := by
  obtain ⟨n, -, -, ha⟩ := (good_cases (get_good hP F fd addr allocated)).2.2 _ hg
  obtain ⟨h1, h2, h3⟩ := (residency_exact P hP F fd addr allocated).2.2 info fd' hg
  refine ⟨ha.wf, ?_, by rw [h1, h2]⟩
  unfold residentBytes
  apply List.filter_congr
  intro a hm
  rw [List.mem_range'_1] at hm
  by_cases hc : a / P - addr / P < 512
  · simp only [hc, decide_true, Bool.true_and]
    have h4 : addr / P + (a / P - addr / P) = a / P := by
      have : addr / P ≤ a / P := Nat.div_le_div_right hm.1
      omega
    have h5 := h3 (a / P - addr / P)
    rw [h4] at h5
    rw [Bool.eq_iff_iff, h5]
    refine ⟨fun h => h.2.2, fun h => ⟨hc, ⟨a - addr, by omega, ?_⟩, h⟩⟩
    rw [Nat.add_sub_cancel' hm.1]
  · simp [hc]

/-- C77: the analysis of a block of a heap profile, with the residency read from the kernel's page map: it fails only if
the kernel refuses to copy; otherwise the number of zero bytes it gives is at most the size of the block, and is made up
of the bytes without memory and of the share of zero bytes of the sample. -/
theorem analyze_exact {rnd : Rat → Rat} (hr : Rounding rnd) (hP : 0 < P) {F : File} {fd fd' : Fd} {allocated : Nat} {info : Info}
    (hle : size ≤ allocated) (hg : Residency.get P F fd addr allocated = .ok (info, fd')) (mem : Nat → Nat)
    (answer : Nat → Nat → Int) (hs : size ≤ 2 ^ 48) :
    (analyze rnd P mem answer cap addr size info = .fail ∧ ∃ n b, answer n b ≠ (b : Int)) ∨
    ∃ z, analyze rnd P mem answer cap addr size info = .ok z ∧ z ≤ size ∧
      (sampleOf P F.entry mem cap addr size = [] → z = size - backedOf P F.entry addr size allocated) ∧
      (sampleOf P F.entry mem cap addr size ≠ [] → ∃ e, z = size - backedOf P F.entry addr size allocated + e ∧
        ((∀ x ∈ sampleOf P F.entry mem cap addr size, x = 0) → e = backedOf P F.entry addr size allocated) ∧
        ((∀ x ∈ sampleOf P F.entry mem cap addr size, x ≠ 0) → e = 0) ∧
        e * (sampleOf P F.entry mem cap addr size).length < (sampleOf P F.entry mem cap addr size).count 0 *
          backedOf P F.entry addr size allocated + (sampleOf P F.entry mem cap addr size).length ∧
        (sampleOf P F.entry mem cap addr size).count 0 * backedOf P F.entry addr size allocated <
          (e + 2) * (sampleOf P F.entry mem cap addr size).length) := by
  obtain ⟨hw, h1, h2⟩ := residentBytes_eq hP hle hg
  have hlen : (sampleOf P F.entry mem cap addr size).length ≤ size := by
    unfold sampleOf
    rw [List.length_map, List.length_take]
    have := List.length_filter_le (fun a => decide (a / P - addr / P < 512) && Present F.entry (a / P)) (List.range' addr size)
    rw [List.length_range'] at this
    omega
  unfold analyze
  rcases sample_exact (cap := cap) (addr := addr) (size := size) hP mem answer info hw with ⟨c, e, -, -⟩ | ⟨e, hf⟩
  · right
    rw [e]
    refine ⟨_, rfl, ?_⟩
    rw [h1]
    have := estimate_spec (size := size) hr (info := info) (sample := sampleOf P F.entry mem cap addr size) hs (by omega)
    rw [h2] at this
    exact this
  · left
    rw [e]
    exact ⟨rfl, hf⟩

theorem zeros_split (p : Nat → Bool) (mem : Nat → Nat) (L : List Nat) : L.countP (fun a => !p a || mem a == 0) +
    ((L.filter p).map mem).length = L.length + ((L.filter p).map mem).count 0 := by
  induction L with
  | nil => rfl
  | cons a L ih =>
    rw [List.countP_cons, List.filter_cons]
    cases h : p a with
    | false => simp only [List.length_map] at ih ⊢; simp; omega
    | true =>
      simp only [if_true, List.map_cons, List.length_cons, List.count_cons, Bool.not_true, Bool.false_or]
      omega

/-- C77: if the whole block is examined (it fits in the buffer and touches no more than 512 pages) and none of it is
swapped out, the number given is that of the bytes of the block that read as zero, or one less. -/
theorem analyze_whole {rnd : Rat → Rat} (hr : Rounding rnd) (hP : 0 < P) {F : File} {fd fd' : Fd} {info : Info}
    (hg : Residency.get P F fd addr size = .ok (info, fd')) (mem : Nat → Nat) (answer : Nat → Nat → Int) (hs : size ≤ 2 ^ 48)
    (hcap : size ≤ cap) (hpages : ∀ a, addr ≤ a → a < addr + size → a / P - addr / P < 512)
    (hsw : ∀ a, addr ≤ a → a < addr + size → Swapped F.entry (a / P) = false) {z : Nat}
    (hz : analyze rnd P mem answer cap addr size info = .ok z) :
    z ≤ (List.range' addr size).countP (fun a => !Present F.entry (a / P) || mem a == 0) ∧
    (List.range' addr size).countP (fun a => !Present F.entry (a / P) || mem a == 0) ≤ z + 1 := by
  have hS : sampleOf P F.entry mem cap addr size =
      ((List.range' addr size).filter (fun a => Present F.entry (a / P))).map mem := by
    unfold sampleOf
    have : (List.range' addr size).filter (fun a => decide (a / P - addr / P < 512) && Present F.entry (a / P)) =
        (List.range' addr size).filter (fun a => Present F.entry (a / P)) := by
      apply List.filter_congr
      intro a ha
      rw [List.mem_range'_1] at ha
      simp [hpages a ha.1 ha.2]
    rw [this, List.take_of_length_le]
    refine Nat.le_trans (List.length_filter_le _ _) ?_
    rw [List.length_range']; exact hcap
  have hon : ∀ q : Nat → Bool, bytesOn P q addr size = (List.range' addr size).countP (fun a => q (a / P)) := by
    intro q
    unfold bytesOn
    rw [List.range'_eq_map_range, List.countP_map]
    rfl
  have hB : backedOf P F.entry addr size size = (sampleOf P F.entry mem cap addr size).length ∧
      (sampleOf P F.entry mem cap addr size).length ≤ size := by
    have h1 : (List.range' addr size).countP (fun a => Swapped F.entry (a / P)) = 0 := by
      rw [List.countP_eq_zero]
      intro a ha
      rw [List.mem_range'_1] at ha
      simp [hsw a ha.1 ha.2]
    have h2 := List.countP_le_length (l := List.range' addr size) (p := fun a => Present F.entry (a / P))
    rw [List.length_range'] at h2
    unfold backedOf
    rw [hS, hon, hon, h1, List.length_map, ← List.countP_eq_length_filter]
    omega
  have hZ : (List.range' addr size).countP (fun a => !Present F.entry (a / P) || mem a == 0) =
      size - (sampleOf P F.entry mem cap addr size).length + (sampleOf P F.entry mem cap addr size).count 0 := by
    have h := zeros_split (fun a => Present F.entry (a / P)) mem (List.range' addr size)
    rw [← hS, List.length_range'] at h
    have := hB.2
    omega
  rw [hZ]
  rcases analyze_exact (cap := cap) hr hP (Nat.le_refl size) hg mem answer hs with ⟨e, -⟩ | ⟨z', e, -, h1, h2⟩
  · rw [hz] at e; exact nomatch e
  · rw [hz] at e
    cases e
    rw [hB.1] at h1 h2
    by_cases hn : sampleOf P F.entry mem cap addr size = []
    · have := h1 hn
      rw [hn] at this ⊢
      simp at this ⊢
      omega
    · obtain ⟨e, h3, -, -, h4, h5⟩ := h2 hn
      have hp := List.length_pos_iff.2 hn
      generalize (sampleOf P F.entry mem cap addr size).length = n at *
      generalize (sampleOf P F.entry mem cap addr size).count 0 = c at *
      have h4 : e * n < (c + 1) * n := by rw [Nat.add_mul, Nat.one_mul]; exact h4
      have := Nat.lt_of_mul_lt_mul_right h4
      have := Nat.lt_of_mul_lt_mul_right h5
      omega

/-- C77: what a sample adds to the zero bytes of a heap profile is at most its share of the requested bytes (of the
allocated bytes, if the application was told that size), and no check fails. -/
theorem addZero_le {rnd : Rat → Rat} (hr : Rounding rnd) (hP : 0 < P) {F : File} {fd fd' : Fd} {requested allocated : Nat} {info : Info}
    (hle : requested ≤ allocated) (hg : Residency.get P F fd addr allocated = .ok (info, fd')) (mem : Nat → Nat)
    (answer : Nat → Nat → Int) (hs : allocated ≤ 2 ^ 48) (count : Nat) (returning : Bool) :
    ∃ z, addZero rnd P mem answer cap count addr requested allocated returning (some info) = .ok z ∧
      z ≤ count * (if returning then allocated else requested) := by
  unfold addZero
  dsimp only
  generalize hq : (if returning then allocated else requested) = size
  have hsz : size ≤ allocated := by subst hq; split <;> omega
  split
  · rcases analyze_exact (cap := cap) hr hP hsz hg mem answer (by omega) with ⟨e, -⟩ | ⟨z, e, h, -⟩
    · rw [e]; exact ⟨0, rfl, Nat.zero_le _⟩
    · rw [e]; exact ⟨_, rfl, Nat.mul_le_mul_left count h⟩
  · exact ⟨0, rfl, Nat.zero_le _⟩

/-- C77: if the bytes analysed are those whose residency was read (the requested size is the allocated size, or the
application was told the allocated size), the whole block is examined and none of it is swapped out, a sample adds for
each of its blocks the number of bytes that read as zero, or one less.  Missing: blocks with a requested size below
the allocated one, of which this is false (`profile_mismatch`). -/
theorem addZero_partial {returning : Bool} {rnd : Rat → Rat} (hr : Rounding rnd) (hP : 0 < P) {F : File} {fd fd' : Fd} {requested allocated : Nat} {info : Info}
    (hsame : returning = true ∨ requested = allocated) (hpos : addr ≠ 0 ∧ 0 < requested)
    (hg : Residency.get P F fd addr allocated = .ok (info, fd')) (mem : Nat → Nat) (answer : Nat → Nat → Int)
    (hans : ∀ n b, answer n b = (b : Int)) (hs : allocated ≤ 2 ^ 48)
    (hcap : allocated ≤ cap) (hpages : ∀ a, addr ≤ a → a < addr + allocated → a / P - addr / P < 512)
    (hsw : ∀ a, addr ≤ a → a < addr + allocated → Swapped F.entry (a / P) = false) (count : Nat) :
    ∃ z, addZero rnd P mem answer cap count addr requested allocated returning (some info) = .ok (count * z) ∧
      z ≤ (List.range' addr allocated).countP (fun a => !Present F.entry (a / P) || mem a == 0) ∧
      (List.range' addr allocated).countP (fun a => !Present F.entry (a / P) || mem a == 0) ≤ z + 1 := by
  unfold addZero
  dsimp only
  have hq : (if returning then allocated else requested) = allocated := by
    rcases hsame with h | h
    · rw [if_pos h]
    · rw [h]; simp
  rw [hq, if_pos hpos]
  rcases analyze_exact (cap := cap) hr hP (Nat.le_refl _) hg mem answer hs with ⟨-, n, b, hc⟩ | ⟨z, e, -⟩
  · exact absurd (hans n b) hc
  · rw [e]
    exact ⟨z, rfl, analyze_whole hr hP hg mem answer hs hcap hpages hsw e⟩

/-! ### Concrete cases -/

theorem rounding_id : Rounding id where
  mono _ _ h := h
  nat _ _ := rfl
  low x h := by show x - x / 2 ^ 53 ≤ x; grind
  high x h := by show x ≤ x + x / 2 ^ 53; grind

/-- Pages of four bytes: page 2 and pages 4 to 5 are in memory, page 3 is not. -/
def demoF : File := ⟨fun p => if p = 2 ∨ p = 4 ∨ p = 5 then 1#64 <<< 63 else 0#64, fun _ => true⟩
/-- Every second byte is zero. -/
def demoMem (a : Nat) : Nat := a % 2

def infoOf (addr size : Nat) : Info := match Residency.get 4 demoF ⟨0, 0⟩ addr size with
  | .ok (i, _) => i
  | _ => {}

example : ((infoOf 9 13).resident, (infoOf 9 13).swapped) = (9, 0) ∧
    copyResident 4 demoMem (fun _ b => b) 100 9 13 (infoOf 9 13) =
      .ok ([⟨9, 3⟩, ⟨16, 6⟩], [1, 0, 1, 0, 1, 0, 1, 0, 1]) ∧
    copyResident 4 demoMem (fun _ b => b) 5 9 13 (infoOf 9 13) = .ok ([⟨9, 3⟩, ⟨16, 2⟩], [1, 0, 1, 0, 1]) ∧
    copyResident 4 demoMem (fun _ _ => -1) 5 9 13 (infoOf 9 13) = .fail := by decide +kernel

example : analyze id 4 demoMem (fun _ b => b) 100 9 13 (infoOf 9 13) = .ok 8 ∧
    (List.range' 9 13).countP (fun a => !Residency.Spec.Present demoF.entry (a / 4) || demoMem a == 0) = 8 := by decide +kernel

/-- Finding: a heap profile reads the residency of the allocated bytes but analyses the requested ones.  Of a block of 5
requested and 8 allocated bytes whose first page (4 bytes) has no memory and whose second page has, four bytes are
zero for want of memory; the profile reports one. -/
theorem profile_mismatch : ∃ info fd', Residency.get 4 demoF ⟨0, 0⟩ 12 8 = .ok (info, fd') ∧
    addZero id 4 (fun _ => 7) (fun _ b => b) 100 1 12 5 8 false (some info) = .ok 1 ∧
    (List.range' 12 5).countP (fun a => !Residency.Spec.Present demoF.entry (a / 4)) = 4 := by
  refine ⟨infoOf 12 8, (match Residency.get 4 demoF ⟨0, 0⟩ 12 8 with | .ok (_, d) => d | _ => ⟨0, 0⟩), ?_⟩
  decide +kernel

end Verif.ZeroBytes
