import Verif.Residency.Spec
import Verif.Bitmap.Props
/-! Helper lemmas for the memory-state queries. -/
namespace Verif.Residency
open Verif.Bitmap (Word bitAt WF)
open Spec

/-! ### Counting bytes -/

theorem bytesOn_zero (P : Nat) (q : Nat → Bool) (a : Nat) : bytesOn P q a 0 = 0 := rfl

theorem bytesOn_add (P : Nat) (q : Nat → Bool) (a m n : Nat) :
    bytesOn P q a (m + n) = bytesOn P q a m + bytesOn P q (a + m) n := by
  simp only [bytesOn, List.range_add, List.countP_append, List.countP_map]
  congr 1
  apply List.countP_congr
  intro k _
  simp [Function.comp, Nat.add_assoc]

/-- A range inside one page. -/
theorem bytesOn_page (P : Nat) (q : Nat → Bool) (a n p : Nat)
    (h : ∀ k, k < n → (a + k) / P = p) :
    bytesOn P q a n = if q p then n else 0 := by
  unfold bytesOn
  have : (List.range n).countP (fun k => q ((a + k) / P)) = (List.range n).countP (fun _ => q p) := by
    apply List.countP_congr
    intro k hk
    rw [h k (List.mem_range.1 hk)]
  rw [this]
  cases hq : q p <;> simp

theorem div_in {P a k p : Nat} (_hP : 0 < P) (h1 : p * P ≤ a + k) (h2 : a + k < (p + 1) * P) :
    (a + k) / P = p := by
  apply Nat.div_eq_of_lt_le h1 h2

/-- Full pages. -/
theorem bytesOn_full {P : Nat} (hP : 0 < P) (q : Nat → Bool) (p : Nat) :
    bytesOn P q (p * P) P = if q p then P else 0 := by
  apply bytesOn_page
  intro k hk
  apply div_in hP (by omega)
  rw [Nat.add_mul]; omega

theorem bytesOn_succ {P : Nat} (hP : 0 < P) (q : Nat → Bool) (p m : Nat) :
    bytesOn P q (p * P) ((m + 1) * P) =
      (if q p then P else 0) + bytesOn P q ((p + 1) * P) (m * P) := by
  have : (m + 1) * P = P + m * P := by rw [Nat.add_mul]; omega
  rw [this, bytesOn_add, bytesOn_full hP]
  congr 2
  rw [Nat.add_mul]; omega

/-! ### The geometry of a range -/

/-- First page, number of pages, and the two partial pages. -/
theorem geom {P addr size : Nat} (hP : 0 < P) (hs : 0 < size) :
    ∃ p o, addr = p * P + o ∧ o < P ∧ basePage P addr = p * P ∧
      ∃ n, 0 < n ∧ endPage P addr size = (p + n) * P ∧
        (p + n) * P - P < addr + size ∧ addr + size ≤ (p + n) * P ∧
        (endPage P addr size - basePage P addr) / P = n := by
  refine ⟨addr / P, addr % P, ?_, Nat.mod_lt _ hP, rfl, ?_⟩
  · have := Nat.div_add_mod addr P; rw [Nat.mul_comm] at this; omega
  have e1 : addr / P * P ≤ addr := Nat.div_mul_le_self _ _
  have e2 : endPage P addr size ≤ addr + size + P - 1 := Nat.div_mul_le_self _ _
  have e3 : addr + size + P - 1 < endPage P addr size + P := by
    unfold endPage
    have := Nat.lt_div_mul_add (a := addr + size + P - 1) hP
    omega
  have e4 : addr / P + 1 ≤ (addr + size + P - 1) / P := by
    rw [Nat.le_div_iff_mul_le hP, Nat.add_mul]; omega
  refine ⟨(addr + size + P - 1) / P - addr / P, by omega, ?_, ?_, ?_, ?_⟩
  · unfold endPage; congr 1; omega
  · have : addr / P + ((addr + size + P - 1) / P - addr / P) = (addr + size + P - 1) / P := by omega
    rw [this]; unfold endPage at *; omega
  · have : addr / P + ((addr + size + P - 1) / P - addr / P) = (addr + size + P - 1) / P := by omega
    rw [this]; unfold endPage at *; omega
  · unfold endPage basePage
    rw [← Nat.sub_mul, Nat.mul_div_cancel _ hP]

/-- A range of one page. -/
theorem bytes_one {P addr size p o : Nat} (hP : 0 < P) (q : Nat → Bool) (ha : addr = p * P + o)
    (he : addr + size ≤ (p + 1) * P) :
    bytesOn P q addr size = if q p then size else 0 := by
  apply bytesOn_page
  intro k hk
  exact div_in hP (by omega) (by omega)

/-- A range of at least two pages. -/
theorem bytes_many {P addr size p o m : Nat} (hP : 0 < P) (q : Nat → Bool) (ha : addr = p * P + o)
    (ho : o < P) (he1 : (p + (m + 2)) * P - P < addr + size) (he2 : addr + size ≤ (p + (m + 2)) * P) :
    bytesOn P q addr size = (if q p then P - o else 0) + bytesOn P q ((p + 1) * P) (m * P) +
      (if q (p + (m + 1)) then P - ((p + (m + 2)) * P - addr - size) else 0) := by
  have x1 : (p + (m + 2)) * P = p * P + m * P + P + P := by simp only [Nat.add_mul]; omega
  have x2 : (p + 1) * P = p * P + P := by simp only [Nat.add_mul]; omega
  have hsz : size = (P - o) + (m * P + (P - ((p + (m + 2)) * P - addr - size))) := by omega
  rw [hsz, bytesOn_add, bytesOn_add, ← hsz]
  have a1 : addr + (P - o) = (p + 1) * P := by omega
  rw [a1]
  rw [bytes_one hP q (addr := addr) (p := p) (o := o) ha (by omega)]
  have x3 : (p + 1) * P + m * P = (p + (m + 1)) * P + 0 := by simp only [Nat.add_mul]; omega
  rw [bytes_one hP q (addr := (p + 1) * P + m * P) (p := p + (m + 1)) (o := 0) x3
    (by have : (p + (m + 1) + 1) * P = p * P + m * P + P + P := by simp only [Nat.add_mul]; omega
        omega)]
  omega

/-! ### Bits -/

theorem testBit_iff (w : Word) (k : Nat) (hk : k < 64) :
    (w &&& (1#64 <<< k) == 1#64 <<< k) = w.getLsbD k := by
  cases h : w.getLsbD k
  · rw [beq_eq_false_iff_ne]
    intro e
    have := congrArg (fun x => x.getLsbD k) e
    simp only [BitVec.getLsbD_and, BitVec.getLsbD_shiftLeft, BitVec.getLsbD_one, h] at this
    simp [hk] at this
  · rw [beq_iff_eq]
    apply BitVec.eq_of_getLsbD_eq
    intro i hi
    simp only [BitVec.getLsbD_and, BitVec.getLsbD_shiftLeft, BitVec.getLsbD_one]
    by_cases e : i = k
    · subst e; simp [h, hi]
    · by_cases e2 : i < k
      · simp [e2]
      · have : i - k ≠ 0 := by omega
        simp [this]

theorem pagePresent_eq (w : Word) : pagePresent w = w.getLsbD 63 := testBit_iff w 63 (by omega)
theorem pageSwapped_eq (w : Word) : pageSwapped w = w.getLsbD 62 := testBit_iff w 62 (by omega)
theorem pageHead_eq (w : Word) : pageHead w = w.getLsbD 15 := testBit_iff w 15 (by omega)
theorem pageTail_eq (w : Word) : pageTail w = w.getLsbD 16 := testBit_iff w 16 (by omega)
theorem pageThp_eq (w : Word) : pageThp w = w.getLsbD 22 := testBit_iff w 22 (by omega)
theorem pageHugetlbfs_eq (w : Word) : pageHugetlbfs w = w.getLsbD 17 := testBit_iff w 17 (by omega)
theorem pageStale_eq (w : Word) : pageStale w = w.getLsbD 44 := testBit_iff w 44 (by omega)

theorem pageLocked_eq (w : Word) : pageLocked w = (w.getLsbD 33 || w.getLsbD 18) := by
  unfold pageLocked
  cases h : (w.getLsbD 33 || w.getLsbD 18)
  · simp only [Bool.or_eq_false_iff] at h
    have : w &&& ((1#64 <<< 33) ||| (1#64 <<< 18)) = 0#64 := by
      apply BitVec.eq_of_getLsbD_eq
      intro i hi
      simp only [BitVec.getLsbD_and, BitVec.getLsbD_or, BitVec.getLsbD_shiftLeft, BitVec.getLsbD_one,
        BitVec.getLsbD_zero]
      by_cases e : i = 33
      · subst e; rw [h.1]; rfl
      · by_cases e' : i = 18
        · subst e'; rw [h.2]; rfl
        · have z1 : ¬ i < 33 → i - 33 ≠ 0 := by omega
          have z2 : ¬ i < 18 → i - 18 ≠ 0 := by omega
          by_cases q1 : i < 33 <;> by_cases q2 : i < 18 <;> simp_all
    rw [this]; rfl
  · simp only [bne_iff_ne, ne_eq]
    intro e
    have e33 := congrArg (fun x => x.getLsbD 33) e
    have e18 := congrArg (fun x => x.getLsbD 18) e
    simp only [BitVec.getLsbD_and] at e33 e18
    rw [show ((1#64 <<< 33) ||| (1#64 <<< 18)).getLsbD 33 = true by decide,
      show (0#64).getLsbD 33 = false by decide, Bool.and_true] at e33
    rw [show ((1#64 <<< 33) ||| (1#64 <<< 18)).getLsbD 18 = true by decide,
      show (0#64).getLsbD 18 = false by decide, Bool.and_true] at e18
    rw [e33, e18] at h
    exact absurd h (by decide)

/-! ### Results -/

@[simp] theorem bind_ok {α β : Type} (a : α) (f : α → Out β) : (Out.ok a >>= f) = f a := rfl
@[simp] theorem bind_ub {α β : Type} (f : α → Out β) : (Out.ub >>= f) = Out.ub := rfl
@[simp] theorem bind_fail {α β : Type} (f : α → Out β) : (Out.fail >>= f) = Out.fail := rfl
@[simp] theorem pure_ok {α : Type} (a : α) : (pure a : Out α) = Out.ok a := rfl

/-- `Good allOk r Q`: not undefined behaviour, any value satisfies `Q`, and no failure unless some
system call fails. -/
def Good {α : Type} (allOk : Prop) (r : Out α) (Q : α → Prop) : Prop :=
  match r with
  | .ub => False
  | .fail => ¬ allOk
  | .ok a => Q a

theorem Good.bind {α β : Type} {A : Prop} {r : Out α} {f : α → Out β} {Q : α → Prop} {R : β → Prop}
    (h : Good A r Q) (hf : ∀ a, Q a → Good A (f a) R) : Good A (r >>= f) R := by
  cases r with
  | ub => exact h.elim
  | fail => exact h
  | ok a => exact hf a h

theorem Good.mono {α : Type} {A : Prop} {r : Out α} {Q R : α → Prop} (h : Good A r Q)
    (hf : ∀ a, Q a → R a) : Good A r R := by
  cases r with
  | ub => exact h.elim
  | fail => exact h
  | ok a => exact hf a h

def File.AllOk (F : File) : Prop := ∀ n, F.ok n = true

theorem seek_good (P : Nat) (F : File) (fd : Fd) (v : Nat) :
    Good F.AllOk (seek P F fd v) (fun fd' => fd'.pos = v / P) := by
  unfold seek
  split
  · rfl
  · rename_i h; intro a; exact h (a _)

theorem read_good (F : File) (fd : Fd) (k : Nat) (hk : k ≤ kEntriesInBuf) :
    Good F.AllOk (read F fd k) (fun r => r.1 = (List.range k).map (fun i => F.entry (fd.pos + i)) ∧
      r.2.pos = fd.pos + k) := by
  unfold read
  rw [if_pos hk]
  split
  · exact ⟨rfl, rfl⟩
  · rename_i h; intro a; exact h (a _)

theorem readOne_good (F : File) (fd : Fd) :
    Good F.AllOk (readOne F fd) (fun r => r.1 = F.entry fd.pos ∧ r.2.pos = fd.pos + 1) := by
  unfold readOne
  refine Good.bind (read_good F fd 1 (by simp [kEntriesInBuf])) ?_
  rintro ⟨buf, fd'⟩ ⟨h1, h2⟩
  simp only at h1 h2
  subst h1
  simp only [List.range_one, List.map_cons, List.map_nil]
  exact ⟨by simp, h2⟩

/-! ### `ResidencyPageMap::Get` -/

/-- What `info` holds after pages `p, …, p + m - 1`, having counted `r` resident and `s` swapped bytes. -/
structure Acc (pm : Nat → Word) (p m r s : Nat) (info : Info) : Prop where
  resident : info.resident = r
  swapped : info.swapped = s
  wf : WF kMaxResidencyBits info.bits
  bits : ∀ j, bitAt info.bits j = (decide (j < m) && decide (j < kMaxResidencyBits) && Present pm (p + j))

theorem Acc.zero (pm : Nat → Word) (p : Nat) : Acc pm p 0 0 0 {} :=
  ⟨rfl, rfl, Bitmap.wf_empty _, fun j => by simp [Bitmap.bitAt_empty]⟩

theorem setBit_ok {N : Nat} {b : List Word} (h : WF N b) {i : Nat} (hi : i < N) :
    ∃ b', setBit N b i = .ok b' ∧ WF N b' ∧ ∀ j, bitAt b' j = if j = i then true else bitAt b j := by
  obtain ⟨_, ⟨b', h1, h2, h3⟩, _⟩ := Bitmap.single_bit_exact N b h i hi
  exact ⟨b', by simp [setBit, h1], h2, h3⟩

theorem update_good {A : Prop} {pm : Nat → Word} {p m r s : Nat} {info : Info} (h : Acc pm p m r s info)
    (size : Nat) :
    Good A (update (pm (p + m)) size m info) (Acc pm p (m + 1)
      (r + if Present pm (p + m) then size else 0) (s + if Swapped pm (p + m) then size else 0)) := by
  unfold update
  rw [pageSwapped_eq]
  have hP : (pm (p + m)).getLsbD 63 = Present pm (p + m) := rfl
  have hS : (pm (p + m)).getLsbD 62 = Swapped pm (p + m) := rfl
  rw [hS]
  have stepS : ∀ info' : Info, Acc pm p (m + 1) (r + if Present pm (p + m) then size else 0) s info' →
      Good A (if Swapped pm (p + m) = true then pure { info' with swapped := info'.swapped + size }
        else pure info' : Out Info) (Acc pm p (m + 1)
      (r + if Present pm (p + m) then size else 0) (s + if Swapped pm (p + m) then size else 0)) := by
    intro info' a
    split
    · exact ⟨a.resident, by simp [a.swapped], a.wf, a.bits⟩
    · rename_i hn
      simp only [pure_ok, Nat.add_zero]
      exact a
  refine Good.bind (Q := Acc pm p (m + 1) (r + if Present pm (p + m) then size else 0) s) ?_ stepS
  unfold updateResident
  rw [pagePresent_eq, hP]
  split
  · rename_i hp
    split
    · rename_i hm
      obtain ⟨b', h1, h2, h3⟩ := setBit_ok h.wf hm
      rw [h1]
      refine ⟨by simp [h.resident], h.swapped, h2, fun j => ?_⟩
      simp only
      rw [h3, h.bits]
      by_cases e : j = m
      · subst e; simp [hm, hp]
      · have : decide (j < m + 1) = decide (j < m) := by apply decide_eq_decide.2; omega
        simp [e, this]
    · rename_i hm
      refine ⟨by simp [h.resident], h.swapped, h.wf, fun j => ?_⟩
      simp only
      rw [h.bits]
      by_cases e : j < kMaxResidencyBits
      · have : decide (j < m + 1) = decide (j < m) := by apply decide_eq_decide.2; omega
        rw [this]
      · simp [e]
  · rename_i hp
    refine ⟨by simp [h.resident], h.swapped, h.wf, fun j => ?_⟩
    rw [h.bits]
    by_cases e : j = m
    · subst e; simp [Bool.eq_false_iff.2 hp]
    · have : decide (j < m + 1) = decide (j < m) := by apply decide_eq_decide.2; omega
      rw [this]

theorem updateAll_good {A : Prop} {P : Nat} (hP : 0 < P) {pm : Nat → Word} {p : Nat} :
    ∀ (k m r s : Nat) (info : Info), Acc pm p m r s info →
      Good A (updateAll P ((List.range k).map (fun i => pm (p + m + i))) m info)
        (Acc pm p (m + k) (r + bytesOn P (Present pm) ((p + m) * P) (k * P))
          (s + bytesOn P (Swapped pm) ((p + m) * P) (k * P)))
  | 0, m, r, s, info, h => by
    simp only [List.range_zero, List.map_nil, Nat.zero_mul, bytesOn_zero, Nat.add_zero]
    exact h
  | k + 1, m, r, s, info, h => by
    rw [List.range_succ_eq_map, List.map_cons, List.map_map]
    unfold updateAll
    refine Good.bind (update_good h P) ?_
    intro info' a
    have e : (List.range k).map ((fun i => pm (p + m + i)) ∘ Nat.succ) =
        (List.range k).map (fun i => pm (p + (m + 1) + i)) := by
      apply List.map_congr_left
      intro i _
      simp only [Function.comp]
      congr 1; omega
    rw [e]
    refine Good.mono (updateAll_good hP k (m + 1) _ _ info' a) ?_
    intro x ax
    have e : m + (k + 1) = m + 1 + k := by omega
    rw [e, bytesOn_succ hP, bytesOn_succ hP]
    simp only [← Nat.add_assoc] at ax ⊢
    exact ax

theorem readMany_good {P : Nat} (hP : 0 < P) (F : File) (p : Nat) :
    ∀ (num m : Nat) (fd : Fd) (r s : Nat) (info : Info), fd.pos = p + m →
      Acc F.entry p m r s info →
      Good F.AllOk (readMany P F fd num m info) (fun x =>
        Acc F.entry p (m + num) (r + bytesOn P (Present F.entry) ((p + m) * P) (num * P))
          (s + bytesOn P (Swapped F.entry) ((p + m) * P) (num * P)) x.1 ∧ x.2.pos = p + (m + num)) := by
  intro num
  induction num using Nat.strongRecOn with
  | _ num ih =>
    intro m fd r s info hpos h
    rw [readMany]
    split
    · rename_i e
      subst e
      simp only [Nat.zero_mul, bytesOn_zero, Nat.add_zero]
      exact ⟨h, hpos⟩
    · rename_i e
      simp only
      have hb : min kEntriesInBuf num ≤ kEntriesInBuf := Nat.min_le_left _ _
      have hb2 : 0 < min kEntriesInBuf num := by simp only [kEntriesInBuf]; omega
      have hb3 : min kEntriesInBuf num ≤ num := Nat.min_le_right _ _
      generalize min kEntriesInBuf num = b at *
      refine Good.bind (read_good F fd b hb) ?_
      rintro ⟨buf, fd'⟩ ⟨h1, h2⟩
      simp only at h1 h2 ⊢
      rw [h1, hpos]
      refine Good.bind (updateAll_good hP b m r s info h) ?_
      intro info' a
      refine Good.mono (ih (num - b) (by omega) (m + b) fd' _ _ info' (by omega) a) ?_
      rintro x ⟨a1, a2⟩
      have e1 : m + b + (num - b) = m + num := by omega
      have e2 : num * P = b * P + (num - b) * P := by rw [← Nat.add_mul]; congr 1; omega
      have e3 : (p + m) * P + b * P = (p + (m + b)) * P := by simp only [Nat.add_mul]; omega
      rw [e1] at a1 a2
      rw [e2, bytesOn_add, bytesOn_add, e3]
      simp only [← Nat.add_assoc] at a1 a2 ⊢
      exact ⟨a1, a2⟩

theorem get_good {P : Nat} (hP : 0 < P) (F : File) (fd : Fd) (addr size : Nat) :
    Good F.AllOk (get P F fd addr size) (fun x =>
      ∃ n, (0 < size → (addr + size + P - 1) / P = addr / P + n) ∧ (size = 0 → n = 0) ∧
      Acc F.entry (addr / P) n (bytesOn P (Present F.entry) addr size)
        (bytesOn P (Swapped F.entry) addr size) x.1) := by
  unfold get
  split
  · rename_i e
    subst e
    exact ⟨0, (fun h => absurd h (by omega)), fun _ => rfl, Acc.zero _ _⟩
  · rename_i hs
    obtain ⟨p, o, h1, h2, h3, n, h4, h5, h6, h7, h8⟩ := geom (addr := addr) hP (Nat.pos_of_ne_zero hs)
    have hp : addr / P = p := by
      have : addr / P * P = p * P := h3
      exact Nat.eq_of_mul_eq_mul_right hP this
    have hn : (addr + size + P - 1) / P = addr / P + n := by
      have : (addr + size + P - 1) / P * P = (p + n) * P := h5
      rw [hp]; exact Nat.eq_of_mul_eq_mul_right hP this
    simp only
    rw [h8, h3, h5]
    refine Good.bind (seek_good P F fd (p * P)) ?_
    intro fd1 f1
    rw [Nat.mul_div_cancel _ hP] at f1
    split
    · rename_i e
      subst e
      refine Good.bind (readOne_good F fd1) ?_
      rintro ⟨w, fd2⟩ ⟨w1, _⟩
      simp only at w1 ⊢
      rw [w1, f1]
      refine Good.bind (update_good (Acc.zero F.entry p) size) ?_
      intro info a
      refine ⟨1, fun _ => hn, fun x => absurd x hs, ?_⟩
      simp only
      rw [hp, bytes_one hP _ h1 h7, bytes_one hP _ h1 h7]
      simpa using a
    · rename_i e
      obtain ⟨m, rfl⟩ : ∃ m, n = m + 2 := ⟨n - 2, by omega⟩
      refine Good.bind (readOne_good F fd1) ?_
      rintro ⟨w, fd2⟩ ⟨w1, w2⟩
      simp only at w1 w2 ⊢
      rw [w1, f1]
      have ho : P - (addr - p * P) = P - o := by omega
      rw [ho]
      refine Good.bind (update_good (Acc.zero F.entry p) (P - o)) ?_
      intro info a
      have em : m + 2 - 1 - 1 = m := by omega
      rw [em]
      refine Good.bind (readMany_good hP F p m 1 fd2 _ _ info (by omega) a) ?_
      rintro ⟨info2, fd3⟩ ⟨a2, w3⟩
      simp only at a2 w3 ⊢
      refine Good.bind (readOne_good F fd3) ?_
      rintro ⟨w', fd4⟩ ⟨w4, _⟩
      simp only at w4 ⊢
      rw [w4, w3]
      refine Good.bind (update_good a2 _) ?_
      intro info3 a3
      refine ⟨m + 2, fun _ => hn, fun x => absurd x hs, ?_⟩
      simp only
      rw [hp, bytes_many hP _ h1 h2 h6 h7, bytes_many hP _ h1 h2 h6 h7]
      have e1 : m + 2 = 1 + m + 1 := by omega
      have e2 : m + 1 = 1 + m := by omega
      rw [e1, e2]
      rw [e1] at a3
      simpa using a3

end Verif.Residency
