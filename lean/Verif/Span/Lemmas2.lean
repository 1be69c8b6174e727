import Verif.Span.Spec
import Verif.Span.Lemmas
import Verif.Bitmap.Props
namespace Verif.Span
open Verif.Bitmap (Word bitAt WF)

theorem Geo.OK.ps {g : Geo} (h : g.OK) : g.pageSize ≤ 2 ^ 18 ∧ g.pageSize % 8 = 0 ∧ 0 < g.pageSize := by
  unfold Geo.pageSize
  refine ⟨Nat.pow_le_pow_right (by omega) h.shiftHi, ?_, Nat.pow_pos (by omega)⟩
  have := h.shiftLo
  rw [show g.pageShift = 3 + (g.pageShift - 3) by omega, Nat.pow_add]
  omega

theorem Geo.OK.start8 {g : Geo} (h : g.OK) : g.start % 8 = 0 := by
  unfold Geo.start
  rw [Nat.mul_mod, h.ps.2.1]; simp

theorem Geo.OK.size_step {g : Geo} (h : g.OK) : g.size = 8 * (g.size / 8) ∧ 0 < g.size / 8 := by
  have := h.size8; have := h.sizePos; omega

/-! ### Index arithmetic -/

/-- C24 core. -/
theorem offsetToIdx_exact {size i : Nat} (hs : 0 < size) (hb : i * size ≤ 2 ^ 24) (hi : i < 2 ^ 16) :
    offsetToIdx (i * size) (calcReciprocal size) = i := by
  unfold offsetToIdx calcReciprocal kDenom
  have hle : 2 ^ 30 / size ≤ 2 ^ 30 := Nat.div_le_self _ _
  rw [Nat.mod_eq_of_lt (a := 2 ^ 30 / size) (by omega)]
  have hdm := Nat.div_add_mod (2 ^ 30) size
  have hr := Nat.mod_lt (2 ^ 30) hs
  generalize 2 ^ 30 / size = q at *
  generalize hrem : 2 ^ 30 % size = r at *
  have e : i * size * q + i * r = i * 2 ^ 30 := by
    rw [← hdm, Nat.mul_add, Nat.mul_assoc]
  have hir : i * r ≤ i * size := Nat.mul_le_mul_left i (by omega)
  rw [Nat.mod_eq_of_lt (a := i * size * q + 2 ^ 30 / 2) (by omega)]
  have : (i * size * q + 2 ^ 30 / 2) / 2 ^ 30 = i := by
    apply Nat.div_eq_of_lt_le
    · omega
    · rw [Nat.add_mul]; omega
  rw [this, Nat.mod_eq_of_lt hi]

theorem Geo.OK.bytes {g : Geo} (h : g.OK) : g.numPages * g.pageSize ≤ 2 ^ 24 := by
  have := Nat.mul_le_mul h.pages h.ps.1
  omega

theorem obj_off_le {g : Geo} (h : g.OK) {k : Nat} (hk : k < g.count) :
    k * g.size + g.size ≤ g.numPages * g.pageSize := by
  have := Nat.mul_le_mul_right g.size (show k + 1 ≤ g.count from hk)
  have := h.fits
  rw [Nat.add_mul] at *; omega

theorem bitmapPtrToIdx_obj {g : Geo} (h : g.OK) {k : Nat} (hk : k < g.count) (hk2 : k < 2 ^ 16) :
    bitmapPtrToIdx g (g.start + k * g.size) (calcReciprocal g.size) = k := by
  unfold bitmapPtrToIdx
  have := obj_off_le h hk
  have := h.bytes
  rw [Nat.add_sub_cancel_left, Nat.mod_eq_of_lt (by omega)]
  exact offsetToIdx_exact h.sizePos (by omega) hk2

/-- List encoding: the index of object `k`. -/
theorem ptrToIdx_obj {g : Geo} (h : g.OK) (hl : useBitmap g = false) {k : Nat} (hk : k < g.count) :
    ptrToIdx g (g.start + k * g.size) = g.size / 8 * k ∧ g.size / 8 * k < 2 ^ 15 := by
  have h1 := obj_off_le h hk
  rw [h.listOne hl, Nat.one_mul] at h1
  have hp := h.ps
  have hs := h.size_step
  have hsz := h.sizePos
  have e1 : k * g.size = 8 * (g.size / 8 * k) := by
    rw [← Nat.mul_assoc, ← hs.1, Nat.mul_comm]
  unfold ptrToIdx
  have e2 : (g.start + k * g.size) &&& (g.pageSize - 1) = (g.start + k * g.size) % g.pageSize := by
    unfold Geo.pageSize; exact Nat.and_two_pow_sub_one_eq_mod _ _
  rw [e2]
  have e3 : (g.start + k * g.size) % g.pageSize = k * g.size := by
    unfold Geo.start
    rw [Nat.add_comm, Nat.add_mul_mod_self_right, Nat.mod_eq_of_lt (by omega)]
  rw [e3, Nat.shiftRight_eq_div_pow]
  generalize g.size / 8 * k = m at *
  omega

theorem idxToPtr_obj {g : Geo} (h : g.OK) (k : Nat) :
    idxToPtr g.start (g.size / 8 * k) = g.start + k * g.size := by
  have hs := h.size_step
  have e1 : k * g.size = 8 * (g.size / 8 * k) := by
    rw [← Nat.mul_assoc, ← hs.1, Nat.mul_comm]
  unfold idxToPtr
  rw [Nat.shiftLeft_eq]; omega

theorem page_start {g : Geo} (h : g.OK) (hl : useBitmap g = false) {k : Nat} (hk : k < g.count) :
    (g.start + k * g.size) - (g.start + k * g.size) % g.pageSize = g.start := by
  have h1 := obj_off_le h hk
  rw [h.listOne hl, Nat.one_mul] at h1
  have hsz := h.sizePos
  have e3 : (g.start + k * g.size) % g.pageSize = k * g.size := by
    unfold Geo.start
    rw [Nat.add_comm, Nat.add_mul_mod_self_right, Nat.mod_eq_of_lt (by omega)]
  omega

/-! ### The representation invariant -/

def baseOf (g : Geo) : Nat := g.start / 2
def limOf (g : Geo) : Nat := g.size / 2 - 1

/-- Span state `s` over memory `w` holds exactly the free objects `F` (up to order). -/
structure Rep (g : Geo) (s : St) (w : Mem) (F : List Nat) : Prop where
  nodup : F.Nodup
  objs : ∀ p ∈ F, IsObj g p
  total : s.alloc + F.length = g.count
  list : useBitmap g = false → s.cache.length ≤ g.cacheSize ∧
    ∃ L, Chain w (baseOf g) (limOf g) s.freelist s.embed L ∧
      F.Perm ((s.cache.reverse ++ L).map (idxToPtr g.start))
  bits : useBitmap g = true → WF g.bitmapSize s.bitmap ∧
    ∀ k, bitAt s.bitmap k = true ↔ k < g.count ∧ g.start + k * g.size ∈ F

theorem Rep.perm {g : Geo} {s : St} {w : Mem} {F F' : List Nat} (h : Rep g s w F) (hp : F.Perm F') :
    Rep g s w F' where
  nodup := hp.nodup_iff.1 h.nodup
  objs p hp' := h.objs p (hp.mem_iff.2 hp')
  total := by rw [← hp.length_eq]; exact h.total
  list hb := by
    obtain ⟨a, L, b, c⟩ := h.list hb
    exact ⟨a, L, b, hp.symm.trans c⟩
  bits hb := by
    obtain ⟨a, b⟩ := h.bits hb
    exact ⟨a, fun k => by rw [b k, hp.mem_iff]⟩

/-- For the list encoding every free index is an object's index. -/
theorem Rep.idx {g : Geo} {s : St} {w : Mem} {F L : List Nat} (hg : g.OK) (h : Rep g s w F)
    (hp : F.Perm ((s.cache.reverse ++ L).map (idxToPtr g.start))) :
    (s.cache.reverse ++ L).Nodup ∧
    (∀ i ∈ s.cache.reverse ++ L, ∃ k, k < g.count ∧ i = g.size / 8 * k) := by
  have hnd := hp.nodup_iff.1 h.nodup
  refine ⟨?_, ?_⟩
  · have := List.Pairwise.of_map (S := (· ≠ ·)) (R := (· ≠ ·)) (idxToPtr g.start)
      (fun a b hab e => hab (by rw [e])) hnd
    exact this
  · intro i hi
    obtain ⟨k, hk, e⟩ := h.objs (idxToPtr g.start i) (hp.mem_iff.2 (List.mem_map_of_mem hi))
    refine ⟨k, hk, ?_⟩
    rw [← idxToPtr_obj hg k] at e
    unfold idxToPtr at e
    rw [Nat.shiftLeft_eq, Nat.shiftLeft_eq] at e
    omega

theorem wordIn {g : Geo} (hg : g.OK) {k j : Nat} (hj : j ≤ limOf g) :
    InObj g (g.start + k * g.size) (baseOf g + 4 * (g.size / 8 * k) + j) := by
  have e := idxToPtr_obj hg k
  unfold idxToPtr at e
  rw [Nat.shiftLeft_eq] at e
  have := hg.start8
  have hs := hg.size_step
  have := hg.sizePos
  unfold InObj baseOf
  unfold limOf at hj
  generalize k * g.size = m at *
  omega

theorem Rep.frame {g : Geo} {s : St} {w w' : Mem} {F : List Nat} (hg : g.OK) (h : Rep g s w F)
    (hw : ∀ p ∈ F, ∀ a, InObj g p a → w' a = w a) : Rep g s w' F where
  nodup := h.nodup
  objs := h.objs
  total := h.total
  list hb := by
    obtain ⟨a, L, b, c⟩ := h.list hb
    refine ⟨a, L, ?_, c⟩
    apply b.frame
    intro i hi j hj
    obtain ⟨k, hk, rfl⟩ := (h.idx hg c).2 i (by simp [hi])
    apply hw (g.start + k * g.size) _ _ (wordIn hg hj)
    rw [← idxToPtr_obj hg]
    exact c.mem_iff.2 (List.mem_map_of_mem (by simp [hi]))
  bits := h.bits

/-! ### Pop -/

theorem range_map_rev_take (l : List Nat) (n : Nat) (hn : n ≤ l.length) (f : Nat → Nat) :
    (List.range n).map (fun i => f (l.getD (l.length - i - 1) 0)) = (l.reverse.take n).map f := by
  apply List.ext_getElem
  · simp; omega
  · intro i h1 h2
    simp only [List.length_map, List.length_range] at h1
    simp only [List.getElem_map, List.getElem_range, List.getElem_take, List.getElem_reverse]
    rw [List.getD_eq_getElem?_getD, List.getElem?_eq_getElem (by omega)]
    simp only [Option.getD_some]
    congr 2
    omega

theorem listPop_spec {g : Geo} {s : St} {w : Mem} {F : List Nat} (hg : g.OK) (hl : useBitmap g = false)
    (h : Rep g s w F) (n : Nat) : ∃ F', Rep g (listPop g s w n).1 w F' ∧
      ((listPop g s w n).2 ++ F').Perm F ∧ (listPop g s w n).2.length = min n F.length := by
  obtain ⟨hc, L, hch, hp⟩ := h.list hl
  unfold listPop
  obtain ⟨rest, fl, em, hr⟩ : ∃ rest fl em, listPopLoop g w (n - min s.cache.length n) s.freelist
      s.embed = (rest, fl, em) := ⟨_, _, _, rfl⟩
  have h8 := hg.start8
  obtain ⟨c1, c2⟩ := listPopLoop_spec (g := g) (by omega) _ _ _ _ hch _ _ _ hr
  simp only [hr]
  rw [range_map_rev_take _ _ (by omega)]
  have eout : (s.cache.reverse.take (min s.cache.length n)).map (idxToPtr g.start) ++ rest =
      ((s.cache.reverse ++ L).take n).map (idxToPtr g.start) := by
    rw [c1, ← List.map_append, List.take_append, List.length_reverse]
    congr 2
    · rcases Nat.le_total s.cache.length n with hle | hle
      · rw [Nat.min_eq_left hle, List.take_of_length_le (by simp), List.take_of_length_le (by simpa)]
      · rw [Nat.min_eq_right hle]
    · congr 1; omega
  have edrop : (s.cache.take (s.cache.length - min s.cache.length n)).reverse ++
      L.drop (n - min s.cache.length n) = (s.cache.reverse ++ L).drop n := by
    rw [List.drop_append, List.length_reverse, List.reverse_take]
    congr 1
    · rcases Nat.le_total s.cache.length n with hle | hle
      · rw [List.drop_of_length_le (by simp; omega), List.drop_of_length_le (by simp; omega)]
      · congr 1; omega
    · congr 1; omega
  rw [eout]
  generalize hA : s.cache.reverse ++ L = A at *
  have hpp : ((A.take n).map (idxToPtr g.start) ++ (A.drop n).map (idxToPtr g.start)).Perm F := by
    rw [← List.map_append, List.take_append_drop]; exact hp.symm
  have hnd := hpp.nodup_iff.2 h.nodup
  have hlen := hp.length_eq
  rw [List.length_map] at hlen
  refine ⟨(A.drop n).map (idxToPtr g.start), ?_, hpp, by simp; omega⟩
  refine ⟨(List.nodup_append.1 hnd).2.1, fun p hp' => h.objs p (hpp.mem_iff.1 (List.mem_append_right _ hp')), ?_, ?_,
    ?_⟩
  · have := h.total
    simp only [List.length_map, List.length_take, List.length_drop]; omega
  · intro _
    refine ⟨?_, L.drop (n - min s.cache.length n), c2, ?_⟩
    · simp only [List.length_take]; omega
    · simp only []; rw [edrop]
  · intro hb; rw [hl] at hb; simp at hb

theorem popLegacy_spec {g : Geo} : ∀ (n : Nat) (ws : List Word), WF g.bitmapSize ws →
    ∃ ws' l, popLegacy g n ws = some (ws', l) ∧ WF g.bitmapSize ws' ∧ l.Pairwise (· < ·) ∧
      (∀ j, bitAt ws j = true ↔ j ∈ l ∨ bitAt ws' j = true) ∧ (∀ j ∈ l, bitAt ws' j = false) ∧
      (∀ x ∈ l, ∀ j, bitAt ws' j = true → x < j) ∧
      l.length ≤ n ∧ (l.length < n → ∀ j, bitAt ws' j = false) := by
  intro n
  induction n with
  | zero =>
    intro ws h
    refine ⟨ws, [], rfl, h, ?_⟩
    simp
  | succ n ih =>
    intro ws h
    rw [popLegacy]
    by_cases hz : Bitmap.isZero ws = true
    · rw [if_pos hz]
      refine ⟨ws, [], rfl, h, by simp, by simp, by simp, by simp, by simp, ?_⟩
      intro _ j
      rcases Nat.lt_or_ge j g.bitmapSize with hj | hj
      · exact (Bitmap.isZero_spec h).1 hz j hj
      · exact h.dead j hj
    · rw [if_neg hz]
      have hex : ∃ j, j < g.bitmapSize ∧ bitAt ws j = true := by
        apply Classical.byContradiction
        intro hn
        apply hz
        rw [Bitmap.isZero_spec h]
        intro j hj
        cases hb : bitAt ws j with
        | false => rfl
        | true => exact absurd ⟨j, hj, hb⟩ hn
      obtain ⟨j0, hj0, hb0⟩ := hex
      obtain ⟨f, f1, _, _, f4, f5⟩ := Bitmap.find_first true g.bitmapSize ws h 0 (by omega)
      have hf : f < g.bitmapSize := by
        apply Classical.byContradiction
        intro hn
        exact f4 j0 (by omega) (by omega) hb0
      have hset := f5 hf
      have hlow : ∀ j, j < f → bitAt ws j = false := by
        intro j hj
        have := f4 j (by omega) hj
        cases hb : bitAt ws j <;> simp_all
      have hcl := Bitmap.clearLowestBit_spec ws f hlow hset
      have hwf : WF g.bitmapSize (Bitmap.clearLowestBit ws) := by
        refine ⟨by rw [hcl.1]; exact h.len, fun j hj => ?_⟩
        rw [hcl.2 j]; split
        · rfl
        · exact h.dead j hj
      obtain ⟨ws', l, e, w1, w2, w3, w4, w5, w6, w7⟩ := ih _ hwf
      refine ⟨ws', f :: l, ?_, w1, ?_, ?_, ?_, ?_, by simp; omega, ?_⟩
      · rw [show Bitmap.findSet g.bitmapSize ws 0 = some f from f1]
        simp only [e]
      · rw [List.pairwise_cons]
        refine ⟨fun j hj => ?_, w2⟩
        have := (w3 j).2 (Or.inl hj)
        rw [hcl.2 j] at this
        split at this
        · simp at this
        · rcases Nat.lt_trichotomy f j with a | a | a
          · exact a
          · rename_i hne; exact absurd a.symm hne
          · rw [hlow j a] at this; simp at this
      · intro j
        by_cases hj : j = f
        · subst hj; simp [hset]
        · have := w3 j
          rw [hcl.2 j, if_neg hj] at this
          simp [this, hj]
      · intro j hj
        rcases List.mem_cons.1 hj with rfl | hj
        · cases hb : bitAt ws' j with
          | false => rfl
          | true =>
            have := (w3 j).2 (Or.inr hb)
            rw [hcl.2 j] at this; simp at this
        · exact w4 j hj
      · intro x hx j hj
        rcases List.mem_cons.1 hx with rfl | hx
        · have := (w3 j).2 (Or.inr hj)
          rw [hcl.2 j] at this
          split at this
          · simp at this
          · rename_i hne
            rcases Nat.lt_trichotomy x j with a | a | a
            · exact a
            · exact absurd a.symm hne
            · rw [hlow j a] at this; simp at this
        · exact w5 x hx j hj
      · intro hlt
        exact w7 (by simpa using hlt)

/-- The two builds' bitmap pops, in one statement. -/
theorem popBits_spec {g : Geo} {ws : List Word} (h : WF g.bitmapSize ws) (n : Nat) :
    ∃ ws' l, (if g.legacy then popLegacy g n ws else some (Bitmap.popBatch ws 0 n)) = some (ws', l) ∧
      WF g.bitmapSize ws' ∧ l.Pairwise (· < ·) ∧
      (∀ j, bitAt ws j = true ↔ j ∈ l ∨ bitAt ws' j = true) ∧ (∀ j ∈ l, bitAt ws' j = false) ∧
      l.length ≤ n ∧ (l.length < n → ∀ j, bitAt ws' j = false) := by
  cases hlg : g.legacy
  · obtain ⟨h1, h2, h3, h4, h5, h6, h7⟩ := Bitmap.popBatch_spec ws 0 n
    obtain ⟨ws', l, e, c1, c2, c3, c4, c5, c6⟩ := Bitmap.popBatch_lowest g.bitmapSize ws h n
    simp only [Bool.false_eq_true, if_false]
    rw [e] at h1 h2 h3 h4 h5 h6 h7 ⊢
    refine ⟨ws', l, rfl, c1, c2, ?_, fun j hj => ((c3 j).1 hj).2, by omega, h6⟩
    intro j
    constructor
    · intro hj
      cases hb : bitAt ws' j with
      | true => exact Or.inr rfl
      | false => exact Or.inl ((c3 j).2 ⟨hj, hb⟩)
    · rintro (hj | hj)
      · exact ((c3 j).1 hj).1
      · exact c4 j hj
  · simp only [if_true]
    obtain ⟨ws', l, e, w1, w2, w3, w4, w5, w6, w7⟩ := popLegacy_spec n ws h
    exact ⟨ws', l, e, w1, w2, w3, w4, w6, w7⟩

theorem obj_inj {g : Geo} (hg : g.OK) {k j : Nat} (h : g.start + k * g.size = g.start + j * g.size) :
    k = j := by
  have : k * g.size = j * g.size := by omega
  exact Nat.eq_of_mul_eq_mul_right hg.sizePos this

theorem bitmapPop_spec {g : Geo} {s : St} {w : Mem} {F : List Nat} (hg : g.OK) (hl : useBitmap g = true)
    (h : Rep g s w F) (n : Nat) : ∃ s' out F', bitmapPop g s n = some (s', out) ∧ Rep g s' w F' ∧
      (out ++ F').Perm F ∧ out.length = min n F.length := by
  obtain ⟨hwf, hb⟩ := h.bits hl
  obtain ⟨ws', l, e, c1, c2, c3, c4, c5, c6⟩ := popBits_spec hwf n
  unfold bitmapPop
  rw [e]
  simp only []
  have hbm := hg.bitmapFits hl
  have hbs : g.bitmapSize ≤ 240 := by unfold Geo.bitmapSize; have := hg.cacheHi; omega
  have hout : (l.map fun i => bitmapIdxToPtr g (i % 2 ^ 16)) = l.map fun i => g.start + i * g.size := by
    apply List.map_congr_left
    intro i hi
    have := (hb i).1 ((c3 i).2 (Or.inl hi))
    unfold bitmapIdxToPtr
    rw [Nat.mod_eq_of_lt (by omega)]
  rw [hout]
  have hmem : ∀ p, p ∈ (l.map fun i => g.start + i * g.size) ↔
      p ∈ F ∧ ∃ k, p = g.start + k * g.size ∧ k ∈ l := by
    intro p
    rw [List.mem_map]
    constructor
    · rintro ⟨k, hk, rfl⟩
      exact ⟨((hb k).1 ((c3 k).2 (Or.inl hk))).2, k, rfl, hk⟩
    · rintro ⟨_, k, rfl, hk⟩; exact ⟨k, hk, rfl⟩
  generalize hF' : F.filter (fun p => decide (p ∉ (l.map fun i => g.start + i * g.size))) = F'
  have hnd1 : (l.map fun i => g.start + i * g.size).Nodup := by
    apply List.Pairwise.map _ _ c2
    intro a b hab e
    have := obj_inj hg e
    omega
  have hpp : ((l.map fun i => g.start + i * g.size) ++ F').Perm F := by
    rw [List.perm_ext_iff_of_nodup _ h.nodup]
    · intro p
      subst hF'
      rw [List.mem_append, List.mem_filter]
      constructor
      · rintro (hh | hh)
        · exact ((hmem p).1 hh).1
        · exact hh.1
      · intro hp
        by_cases hq : p ∈ (l.map fun i => g.start + i * g.size)
        · exact Or.inl hq
        · exact Or.inr ⟨hp, by simpa using hq⟩
    · rw [List.nodup_append]
      refine ⟨hnd1, ?_, ?_⟩
      · subst hF'; exact h.nodup.filter _
      · intro a ha b hbm e
        subst hF'
        rw [List.mem_filter] at hbm
        subst e
        have := hbm.2
        simp only [decide_eq_true_eq] at this
        exact this ha
  have hlenF := hpp.length_eq
  rw [List.length_append, List.length_map] at hlenF
  refine ⟨_, _, F', rfl, ⟨?_, ?_, ?_, ?_, ?_⟩, hpp, ?_⟩
  · exact (List.nodup_append.1 (hpp.nodup_iff.2 h.nodup)).2.1
  · exact fun p hp => h.objs p (hpp.mem_iff.1 (by simp [hp]))
  · have := h.total
    simp only []; omega
  · intro hh; rw [hl] at hh; simp at hh
  · intro _
    refine ⟨c1, fun k => ?_⟩
    subst hF'
    rw [List.mem_filter]
    simp only [decide_eq_true_eq]
    constructor
    · intro hk
      have := (hb k).1 ((c3 k).2 (Or.inr hk))
      refine ⟨this.1, this.2, ?_⟩
      intro hm
      obtain ⟨_, j, ej, hj⟩ := (hmem _).1 hm
      have := obj_inj hg ej
      subst this
      rw [c4 k hj] at hk; simp at hk
    · rintro ⟨a, b, c⟩
      rcases (c3 k).1 ((hb k).2 ⟨a, b⟩) with hk | hk
      · exact absurd ((hmem _).2 ⟨b, k, rfl, hk⟩) c
      · exact hk
  · rw [List.length_map]
    by_cases hlt : l.length < n
    · have : F' = [] := by
        rw [List.eq_nil_iff_forall_not_mem]
        intro p hp
        have hpF := hpp.mem_iff.1 (show p ∈ _ ++ F' by simp [hp])
        obtain ⟨k, hk, rfl⟩ := h.objs p hpF
        rcases (c3 k).1 ((hb k).2 ⟨hk, hpF⟩) with hj | hj
        · subst hF'
          rw [List.mem_filter] at hp
          have := hp.2
          simp only [decide_eq_true_eq] at this
          exact this ((hmem _).2 ⟨hpF, k, rfl, hj⟩)
        · rw [c6 hlt k] at hj; simp at hj
      rw [this] at hlenF; simp at hlenF; omega
    · omega

/-- Pop, both encodings. -/
theorem popBatch_spec {g : Geo} {s : St} {w : Mem} {F : List Nat} (hg : g.OK) (h : Rep g s w F)
    (n : Nat) : ∃ s' out F', popBatch g s w n = some (s', out) ∧ Rep g s' w F' ∧
      (out ++ F').Perm F ∧ out.length = min n F.length := by
  unfold popBatch
  cases hu : useBitmap g
  · obtain ⟨F', h1, h2, h3⟩ := listPop_spec hg hu h n
    exact ⟨_, _, F', rfl, h1, h2, h3⟩
  · exact bitmapPop_spec hg hu h n

end Verif.Span
