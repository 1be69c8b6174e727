import Verif.HintedLists.Model
import Verif.Bitmap.Props
/-! C39: the bitmap of non-empty lists and the size always agree with the lists. -/
namespace Verif.HintedLists
open Verif.Bitmap

variable {N : Nat}

/-- Histories.  An element is added only when it is on no list (an element of an intrusive list is on at most one). -/
inductive Reach (N : Nat) : HL → Prop where
  | new : Reach N (HL.new N)
  | add {s s'} (pt i : Nat) : Reach N s → (∀ j, pt ∉ s.lists j) → add N s pt i = some s' → Reach N s'
  | remove {s s'} (pt i : Nat) : Reach N s → remove N s pt i = some s' → Reach N s'
  | move {s s'} (pt a b : Nat) : Reach N s → move N s pt a b = some s' → Reach N s'
  | getLeast {s s' r} (n : Nat) : Reach N s → getLeast N s n = some (s', r) → Reach N s'

/-- All elements, list by list from index `a` on. -/
def elems (lists : Nat → List Nat) (a n : Nat) : List Nat := (List.range' a n).flatMap lists

/-- C39. -/
structure Inv (N : Nat) (s : HL) : Prop where
  wf : WF N s.nonempty
  bits : ∀ i, i < N → (bitAt s.nonempty i = true ↔ s.lists i ≠ [])
  out : ∀ i, N ≤ i → s.lists i = []
  size : s.size = (elems s.lists 0 N).length
  nodup : ∀ i, (s.lists i).Nodup
  disj : ∀ i j, i ≠ j → ∀ x ∈ s.lists i, x ∉ s.lists j

theorem elems_split (lists : Nat → List Nat) {i : Nat} (hi : i < N) :
    elems lists 0 N = elems lists 0 i ++ lists i ++ elems lists (i + 1) (N - (i + 1)) := by
  unfold elems
  have : List.range' 0 N = List.range' 0 i ++ [i] ++ List.range' (i + 1) (N - (i + 1)) := by
    have h1 : N = i + (1 + (N - (i + 1))) := by omega
    rw [List.append_assoc]
    conv => lhs; rw [h1]
    rw [← List.range'_append_1, ← List.range'_append_1]
    simp
  rw [this]
  simp [List.flatMap_append]

theorem elems_congr {f g : Nat → List Nat} {a n : Nat} (h : ∀ i, a ≤ i → i < a + n → f i = g i) :
    elems f a n = elems g a n := by
  unfold elems
  rw [List.flatMap, List.flatMap]
  congr 1
  apply List.map_congr_left
  intro x hx
  rw [List.mem_range'_1] at hx
  exact h x hx.1 hx.2

theorem elems_set (f : Nat → List Nat) (L : List Nat) {i : Nat} (hi : i < N) :
    (elems (setList f i L) 0 N).length + (f i).length = (elems f 0 N).length + L.length := by
  rw [elems_split f hi, elems_split (setList f i L) hi,
    elems_congr (f := setList f i L) (g := f) (a := 0) (n := i) (fun j _ hj => by simp [setList]; omega),
    elems_congr (f := setList f i L) (g := f) (a := i + 1) (fun j hj _ => by simp [setList]; omega)]
  have : setList f i L i = L := by simp [setList]
  rw [this]
  simp only [List.length_append]
  omega

theorem unlink_spec {s : HL} (h : Inv N s) {pt i : Nat} (hi : i < N) (hm : pt ∈ s.lists i) :
    ∃ s', unlink N s pt i = some s' ∧ s'.lists = setList s.lists i ((s.lists i).erase pt) ∧ s'.size = s.size ∧
      WF N s'.nonempty ∧ (∀ j, j < N → (bitAt s'.nonempty j = true ↔ s'.lists j ≠ [])) := by
  unfold unlink
  rw [if_pos hm]
  simp only []
  have hb : bitAt s.nonempty i = true := (h.bits i hi).2 (List.ne_nil_of_mem hm)
  by_cases he : ((s.lists i).erase pt).isEmpty = true
  · rw [if_pos he]
    obtain ⟨ws, e, w, hbit⟩ := (single_bit_exact N s.nonempty h.wf i hi).2.2
    rw [hb] at e
    rw [e]
    refine ⟨_, rfl, rfl, rfl, w, ?_⟩
    intro j hj
    simp only []
    rw [hbit j]
    by_cases hji : j = i
    · rw [if_pos hji, hji]
      have : setList s.lists i ((s.lists i).erase pt) i = [] := by
        simp only [setList, if_true]; exact List.isEmpty_iff.1 he
      rw [this]
      constructor
      · intro hc; simp at hc
      · intro hc; exact absurd rfl hc
    · rw [if_neg hji]
      simp only [setList, if_neg hji]
      exact h.bits j hj
  · rw [if_neg he]
    refine ⟨_, rfl, rfl, rfl, h.wf, ?_⟩
    intro j hj
    simp only [setList]
    by_cases hji : j = i
    · rw [if_pos hji, hji]
      constructor
      · intro _ hc; exact he (List.isEmpty_iff.2 hc)
      · intro _; exact hb
    · rw [if_neg hji]; exact h.bits j hj

theorem link_spec {s : HL} (hw : WF N s.nonempty) (hbits : ∀ j, j < N → (bitAt s.nonempty j = true ↔ s.lists j ≠ []))
    {pt i : Nat} (hi : i < N) :
    ∃ s', link N s pt i = some s' ∧ s'.lists = setList s.lists i (pt :: s.lists i) ∧ s'.size = s.size ∧
      WF N s'.nonempty ∧ (∀ j, j < N → (bitAt s'.nonempty j = true ↔ s'.lists j ≠ [])) := by
  obtain ⟨ws, e, w, hbit⟩ := (single_bit_exact N s.nonempty hw i hi).2.1
  unfold link
  rw [e]
  refine ⟨_, rfl, rfl, rfl, w, ?_⟩
  intro j hj
  simp only []
  rw [hbit j]
  by_cases hji : j = i
  · rw [if_pos hji, hji]; simp [setList]
  · rw [if_neg hji]; simp only [setList, if_neg hji]; exact hbits j hj

theorem remove_spec {s : HL} (h : Inv N s) {pt i : Nat} (hi : i < N) (hm : pt ∈ s.lists i) :
    ∃ s', (unlink N s pt i).bind decSize = some s' ∧ s'.lists = setList s.lists i ((s.lists i).erase pt) ∧
      s'.size + 1 = s.size ∧ Inv N s' := by
  obtain ⟨s1, e, h1, h2, h3, h4⟩ := unlink_spec h hi hm
  have hlen := List.length_erase_of_mem hm
  have hpos := List.length_pos_of_mem hm
  have hset := elems_set s.lists ((s.lists i).erase pt) hi
  have hsz := h.size
  have hle : (s.lists i).length ≤ (elems s.lists 0 N).length := by
    rw [elems_split s.lists hi]; simp only [List.length_append]; omega
  rw [e, Option.bind_some]
  unfold decSize
  rw [if_pos (by omega)]
  refine ⟨_, rfl, h1, by simp only []; omega, h3, h4, ?_, ?_, ?_, ?_⟩
  · intro j hj
    simp only [h1, setList]
    rw [if_neg (by omega)]
    exact h.out j hj
  · simp only [h1]; omega
  · intro j
    simp only [h1, setList]
    split
    · exact (h.nodup i).erase pt
    · exact h.nodup j
  · intro j k hjk x hx
    have sub : ∀ j, ∀ x ∈ setList s.lists i ((s.lists i).erase pt) j, x ∈ s.lists j := by
      intro j x hx
      simp only [setList] at hx
      split at hx
      · rename_i hc; rw [hc]; exact List.mem_of_mem_erase hx
      · exact hx
    simp only [h1] at hx ⊢
    exact fun hc => h.disj j k hjk x (sub j x hx) (sub k x hc)

theorem add_spec {s : HL} (h : Inv N s) {pt i : Nat} (hi : i < N) (hn : ∀ j, pt ∉ s.lists j) :
    ∃ s', add N s pt i = some s' ∧ s'.lists = setList s.lists i (pt :: s.lists i) ∧ s'.size = s.size + 1 ∧ Inv N s' := by
  obtain ⟨s1, e, h1, h2, h3, h4⟩ := link_spec (pt := pt) h.wf h.bits hi
  have hset := elems_set s.lists (pt :: s.lists i) hi
  have hsz := h.size
  rw [List.length_cons] at hset
  unfold add
  rw [if_pos hi, e]
  refine ⟨_, rfl, h1, by simp only []; omega, h3, h4, ?_, ?_, ?_, ?_⟩
  · intro j hj
    simp only [h1, setList]
    rw [if_neg (by omega)]
    exact h.out j hj
  · simp only [h1]; omega
  · intro j
    simp only [h1, setList]
    split
    · exact List.nodup_cons.2 ⟨hn i, h.nodup i⟩
    · exact h.nodup j
  · intro j k hjk x hx hx'
    simp only [h1, setList] at hx hx'
    have : (x = pt ∧ j = i) ∨ x ∈ s.lists j := by
      split at hx
      · rename_i hc
        rcases List.mem_cons.1 hx with hx | hx
        · exact Or.inl ⟨hx, hc⟩
        · exact Or.inr (hc ▸ hx)
      · exact Or.inr hx
    have this' : (x = pt ∧ k = i) ∨ x ∈ s.lists k := by
      split at hx'
      · rename_i hc
        rcases List.mem_cons.1 hx' with hx | hx
        · exact Or.inl ⟨hx, hc⟩
        · exact Or.inr (hc ▸ hx)
      · exact Or.inr hx'
    rcases this with ⟨rfl, a⟩ | a <;> rcases this' with ⟨b, c⟩ | b
    · exact hjk (a.trans c.symm)
    · exact hn k b
    · exact hn j (b ▸ a)
    · exact h.disj j k hjk x a b

theorem move_spec {s : HL} (h : Inv N s) {pt a b : Nat} (ha : a < N) (hb : b < N) (hab : a ≠ b) (hm : pt ∈ s.lists a) :
    ∃ s', move N s pt a b = some s' ∧
      s'.lists = setList (setList s.lists a ((s.lists a).erase pt)) b (pt :: s.lists b) ∧ s'.size = s.size ∧ Inv N s' := by
  obtain ⟨s1, e, h1, h2, h3, h4⟩ := unlink_spec h ha hm
  obtain ⟨s2, e2, k1, k2, k3, k4⟩ := link_spec (pt := pt) h3 h4 hb
  have hlen := List.length_erase_of_mem hm
  have hpos := List.length_pos_of_mem hm
  have hset := elems_set s.lists ((s.lists a).erase pt) ha
  have hset2 := elems_set s1.lists (pt :: s1.lists b) hb
  rw [List.length_cons] at hset2
  have hsz := h.size
  have hb1 : s1.lists b = s.lists b := by rw [h1]; simp [setList, Ne.symm hab]
  unfold move
  rw [if_pos ⟨ha, hb, hab⟩, e, Option.bind_some, e2]
  refine ⟨_, rfl, by rw [k1, hb1, h1], by omega, k3, k4, ?_, ?_, ?_, ?_⟩
  · intro j hj
    rw [k1, h1]
    simp only [setList]
    rw [if_neg (by omega), if_neg (by omega)]
    exact h.out j hj
  · rw [k1, k2, h2, hsz]; rw [h1] at hset2 ⊢; omega
  · intro j
    rw [k1, hb1, h1]
    simp only [setList]
    split
    · exact List.nodup_cons.2 ⟨fun hc => h.disj a b hab pt hm hc, h.nodup b⟩
    · split
      · exact (h.nodup a).erase pt
      · exact h.nodup j
  · intro j k hjk x hx hx'
    rw [k1, hb1, h1] at hx hx'
    have key : ∀ j, x ∈ setList (setList s.lists a ((s.lists a).erase pt)) b (pt :: s.lists b) j →
        (x = pt ∧ j = b) ∨ (x ≠ pt ∧ x ∈ s.lists j) := by
      intro j hx
      simp only [setList] at hx
      split at hx
      · rename_i hc
        rcases List.mem_cons.1 hx with hx | hx
        · exact Or.inl ⟨hx, hc⟩
        · exact Or.inr ⟨fun e => h.disj a b hab pt hm (e ▸ hx), hc ▸ hx⟩
      · split at hx
        · rename_i hc
          rw [hc]
          exact Or.inr ⟨fun e => by rw [e] at hx; exact (List.Nodup.not_mem_erase (h.nodup a)) hx, List.mem_of_mem_erase hx⟩
        · rename_i hc
          exact Or.inr ⟨fun e => h.disj a j (Ne.symm hc) pt hm (e ▸ hx), hx⟩
    rcases key j hx with ⟨a1, a2⟩ | ⟨a1, a2⟩ <;> rcases key k hx' with ⟨b1, b2⟩ | ⟨b1, b2⟩
    · exact hjk (a2.trans b2.symm)
    · exact b1 a1
    · exact a1 b1
    · exact h.disj j k hjk x a2 b2

/-- The least non-empty list at or above `n`. -/
def Least (N : Nat) (lists : Nat → List Nat) (n i : Nat) : Prop :=
  n ≤ i ∧ i < N ∧ lists i ≠ [] ∧ ∀ j, n ≤ j → j < i → lists j = []

theorem peekLeast_spec {s : HL} (h : Inv N s) {n : Nat} (hn : n < N) :
    (∃ i pt L, peekLeast N s n = some (some (pt, i)) ∧ Least N s.lists n i ∧ s.lists i = pt :: L) ∨
    (peekLeast N s n = some none ∧ ∀ j, n ≤ j → s.lists j = []) := by
  obtain ⟨r, e, h1, h2, h3, h4⟩ := findValue_spec true h.wf hn
  have e' : findSet N s.nonempty n = some r := e
  have hempty : ∀ j, n ≤ j → j < r → s.lists j = [] := by
    intro j a b
    apply Classical.byContradiction
    intro hc
    exact h3 j a b ((h.bits j (by omega)).2 hc)
  unfold peekLeast
  rw [if_pos hn, e']
  simp only []
  by_cases hr : r = N
  · rw [if_pos hr]
    right
    refine ⟨rfl, fun j hj => ?_⟩
    by_cases hjN : j < N
    · exact hempty j hj (by omega)
    · exact h.out j (by omega)
  · rw [if_neg hr]
    left
    have hne := (h.bits r (by omega)).1 (h4 (by omega))
    cases hL : s.lists r with
    | nil => exact absurd hL hne
    | cons pt L => exact ⟨r, pt, L, rfl, ⟨h1, by omega, hne, hempty⟩, hL⟩

theorem getLeast_spec {s : HL} (h : Inv N s) {n : Nat} (hn : n < N) :
    (∃ i pt L s', getLeast N s n = some (s', some pt) ∧ Least N s.lists n i ∧ s.lists i = pt :: L ∧
      s'.lists = setList s.lists i L ∧ s'.size + 1 = s.size ∧ Inv N s') ∨
    (getLeast N s n = some (s, none) ∧ ∀ j, n ≤ j → s.lists j = []) := by
  unfold getLeast
  rcases peekLeast_spec h hn with ⟨i, pt, L, e, hl, hL⟩ | ⟨e, hl⟩
  · rw [e]
    simp only []
    obtain ⟨s', e1, h1, h2, h3⟩ := remove_spec h hl.2.1 (pt := pt) (by rw [hL]; simp)
    rw [e1]
    exact Or.inl ⟨i, pt, L, s', rfl, hl, hL, by rw [h1, hL]; simp, h2, h3⟩
  · rw [e]
    exact Or.inr ⟨rfl, hl⟩

theorem inv_new : Inv N (HL.new N) := by
  refine ⟨wf_empty N, ?_, fun _ _ => rfl, ?_, by simp [HL.new], by simp [HL.new]⟩
  · intro i _
    simp [HL.new, bitAt_empty]
  · have : elems (fun _ => []) 0 N = [] := by unfold elems; simp
    simp [HL.new, this]

theorem Reach.inv {s : HL} (h : Reach N s) : Inv N s := by
  induction h with
  | new => exact inv_new
  | @add s s' pt i _ hn e ih =>
    have hi : i < N := by
      apply Classical.byContradiction; intro hc; simp [HintedLists.add, hc] at e
    obtain ⟨s1, e1, _, _, h1⟩ := add_spec ih hi hn
    rw [e, Option.some.injEq] at e1; exact e1 ▸ h1
  | @remove s s' pt i _ e ih =>
    have hi : i < N := by
      apply Classical.byContradiction; intro hc; simp [HintedLists.remove, hc] at e
    have hm : pt ∈ s.lists i := by
      apply Classical.byContradiction; intro hc; simp [HintedLists.remove, unlink, hc] at e
    obtain ⟨s1, e1, _, _, h1⟩ := remove_spec ih hi hm
    unfold HintedLists.remove at e
    rw [if_pos hi, e1, Option.some.injEq] at e; exact e ▸ h1
  | @move s s' pt a b _ e ih =>
    have hi : a < N ∧ b < N ∧ a ≠ b := by
      apply Classical.byContradiction; intro hc
      unfold HintedLists.move at e
      rw [if_neg hc] at e; simp at e
    have hm : pt ∈ s.lists a := by
      apply Classical.byContradiction; intro hc
      unfold HintedLists.move unlink at e
      rw [if_pos hi, if_neg hc] at e; simp at e
    obtain ⟨s1, e1, _, _, h1⟩ := move_spec ih hi.1 hi.2.1 hi.2.2 hm
    rw [e, Option.some.injEq] at e1; exact e1 ▸ h1
  | @getLeast s s' r n _ e ih =>
    have hn : n < N := by
      apply Classical.byContradiction; intro hc; simp [HintedLists.getLeast, peekLeast, hc] at e
    rcases getLeast_spec ih hn with ⟨i, pt, L, s1, e1, _, _, _, _, h1⟩ | ⟨e1, _⟩
    · rw [e] at e1; simp only [Option.some.injEq, Prod.mk.injEq] at e1; exact e1.1 ▸ h1
    · rw [e] at e1; simp only [Option.some.injEq, Prod.mk.injEq] at e1; exact e1.1 ▸ ih

/-- C39: after any history, bit `i` is set exactly when list `i` is non-empty, `size()` is the number of elements, and
no element is on two lists or twice on one. -/
theorem index_exact {s : HL} (h : Reach N s) :
    (∀ i, i < N → (bitAt s.nonempty i = true ↔ s.lists i ≠ [])) ∧ s.size = (elems s.lists 0 N).length ∧
    (∀ i, (s.lists i).Nodup) ∧ (∀ i j, i ≠ j → ∀ x ∈ s.lists i, x ∉ s.lists j) :=
  ⟨h.inv.bits, h.inv.size, h.inv.nodup, h.inv.disj⟩

/-- C39: taking or peeking at the least adequate element always finds the head of the non-empty list with the smallest
index at or above `n`, and finds nothing exactly when all those lists are empty; taking removes just that element. -/
theorem least_exact {s : HL} (h : Reach N s) {n : Nat} (hn : n < N) :
    (∃ i pt L s', peekLeast N s n = some (some (pt, i)) ∧ getLeast N s n = some (s', some pt) ∧
      Least N s.lists n i ∧ s.lists i = pt :: L ∧
      (∀ j, s'.lists j = if j = i then L else s.lists j) ∧ s'.size + 1 = s.size ∧ Reach N s') ∨
    (peekLeast N s n = some none ∧ getLeast N s n = some (s, none) ∧ ∀ j, n ≤ j → s.lists j = []) := by
  rcases getLeast_spec h.inv hn with ⟨i, pt, L, s', e, hl, hL, h1, h2, h3⟩ | ⟨e, hl⟩
  · left
    refine ⟨i, pt, L, s', ?_, e, hl, hL, fun j => by rw [h1]; rfl, h2, Reach.getLeast n h e⟩
    rcases peekLeast_spec h.inv hn with ⟨i', pt', L', e', hl', hL'⟩ | ⟨e', hl'⟩
    · have : i' = i := by
        rcases Nat.lt_trichotomy i i' with hc | hc | hc
        · exact absurd (hl'.2.2.2 i hl.1 hc) hl.2.2.1
        · exact hc.symm
        · exact absurd (hl.2.2.2 i' hl'.1 hc) hl'.2.2.1
      subst this
      rw [hL] at hL'
      simp only [List.cons.injEq] at hL'
      rw [e', hL'.1]
    · exact absurd (hl' i hl.1) hl.2.2.1
  · right
    refine ⟨?_, e, hl⟩
    rcases peekLeast_spec h.inv hn with ⟨i', pt', L', e', hl', hL'⟩ | ⟨e', _⟩
    · exact absurd (hl i' hl'.1) hl'.2.2.1
    · exact e'

/-- C39: adding, removing and moving are defined whenever their preconditions hold and change exactly the lists they
name. -/
theorem steps_exact {s : HL} (h : Reach N s) (pt : Nat) :
    (∀ i, i < N → (∀ j, pt ∉ s.lists j) → ∃ s', add N s pt i = some s' ∧ Reach N s' ∧ s'.size = s.size + 1 ∧
      ∀ j, s'.lists j = if j = i then pt :: s.lists i else s.lists j) ∧
    (∀ i, i < N → pt ∈ s.lists i → ∃ s', remove N s pt i = some s' ∧ Reach N s' ∧ s'.size + 1 = s.size ∧
      ∀ j, s'.lists j = if j = i then (s.lists i).erase pt else s.lists j) ∧
    (∀ a b, a < N → b < N → a ≠ b → pt ∈ s.lists a → ∃ s', move N s pt a b = some s' ∧ Reach N s' ∧ s'.size = s.size ∧
      ∀ j, s'.lists j = if j = b then pt :: s.lists b else if j = a then (s.lists a).erase pt else s.lists j) := by
  refine ⟨?_, ?_, ?_⟩
  · intro i hi hn
    obtain ⟨s', e, h1, h2, _⟩ := add_spec h.inv hi hn
    exact ⟨s', e, Reach.add pt i h hn e, h2, fun j => by rw [h1]; rfl⟩
  · intro i hi hm
    obtain ⟨s', e, h1, h2, _⟩ := remove_spec h.inv hi hm
    have e' : remove N s pt i = some s' := by unfold remove; rw [if_pos hi, e]
    exact ⟨s', e', Reach.remove pt i h e', h2, fun j => by rw [h1]; rfl⟩
  · intro a b ha hb hab hm
    obtain ⟨s', e, h1, h2, _⟩ := move_spec h.inv ha hb hab hm
    exact ⟨s', e, Reach.move pt a b h e, h2, fun j => by rw [h1]; rfl⟩

theorem iter_inv {s : HL} (h : Inv N s) : ∀ (start : Nat), start < N →
    iter N s start = some (elems s.lists start (N - start)) := by
  have key : ∀ m start, N - start ≤ m → start < N → iter N s start = some (elems s.lists start (N - start)) := by
    intro m
    induction m with
    | zero => intro start hm hs; omega
    | succ m ih =>
      intro start hm hs
      obtain ⟨r, e, h1, h2, h3, h4⟩ := findValue_spec true h.wf hs
      have e' : findSet N s.nonempty start = some r := e
      have hempty : ∀ j, start ≤ j → j < r → s.lists j = [] := by
        intro j a b
        apply Classical.byContradiction
        intro hc
        exact h3 j a b ((h.bits j (by omega)).2 hc)
      have hz : ∀ n, start + n ≤ r → elems s.lists start n = [] := by
        intro n hn
        unfold elems
        rw [List.flatMap_eq_nil_iff]
        intro x hx
        rw [List.mem_range'_1] at hx
        exact hempty x hx.1 (by omega)
      rw [iter, e']
      simp only []
      by_cases hr : r < N
      · rw [dif_pos ⟨h1, hr⟩]
        have hne := (h.bits r hr).1 (h4 hr)
        rw [if_neg (by simpa using hne)]
        have hsplit : elems s.lists start (N - start) = s.lists r ++ elems s.lists (r + 1) (N - (r + 1)) := by
          have h5 : N - start = (r - start) + (1 + (N - (r + 1))) := by omega
          have h6 : elems s.lists start (N - start) = elems s.lists start (r - start) ++
              (s.lists r ++ elems s.lists (r + 1) (N - (r + 1))) := by
            unfold elems
            rw [h5, ← List.range'_append_1, ← List.range'_append_1]
            have : start + (r - start) = r := by omega
            rw [this]
            simp [List.flatMap_append]
          rw [h6, hz _ (by omega), List.nil_append]
        by_cases hr1 : r + 1 < N
        · rw [if_pos hr1, ih (r + 1) (by omega) hr1, hsplit]; rfl
        · rw [if_neg hr1, hsplit]
          have : N - (r + 1) = 0 := by omega
          rw [this]; simp [elems]
      · rw [dif_neg (by omega), hz _ (by omega)]
  intro start hs
  exact key N start (by omega) hs

/-! ### A concrete history -/

/-- C39: iteration from `start` visits exactly the elements of the lists at or above `start`, in order, once each. -/
theorem iter_exact {s : HL} (h : Reach N s) : ∀ (start : Nat), start < N →
    iter N s start = some (elems s.lists start (N - start)) := iter_inv h.inv

def demo : Option (Option Nat × Nat × List Nat) := do
  let s ← add 70 (HL.new 70) 10 3
  let s ← add 70 s 11 68
  let s ← add 70 s 12 68
  let s ← move 70 s 10 3 5
  let (s, r) ← getLeast 70 s 6
  let s ← add 70 s 12 4
  let l ← iter 70 s 0
  pure (r, s.size, l)

example : demo = some (some 12, 3, [12, 10, 11]) := by decide +kernel

end Verif.HintedLists
