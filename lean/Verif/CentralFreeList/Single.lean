import Verif.CentralFreeList.Props
/-! The counters of the central free list, for all geometries: of a class with one object per span, it keeps none. -/
namespace Verif.CentralFreeList
open Verif.Span (Geo Mem IsObj InObj)
variable {k : Geo}

theorem single_counters (hk : k.OK) (h1 : k.count = 1) (x : World) (h : Reach k x) :
    x.c.counter = 0 ∧ x.c.requested = 0 ∧ x.c.returned = 0 := by
  induction h with
  | init w => exact ⟨rfl, rfl, rfl⟩
  | @step x x' o e hr hp he ih =>
    obtain ⟨live, hi⟩ := hr.inv hk
    cases e with
    | write w => unfold step at he; cases he; exact ih
    | remove n =>
      unfold step remove at he
      dsimp only at he
      by_cases hn : n = 0 ∨ kMaxObjectsToMove < n
      · rw [if_pos hn] at he; cases he
      · rw [if_neg hn, if_pos h1] at he; cases he; exact ih
    | populate j span =>
      unfold step populate at he
      cases hj : x.c.pend[j]? with
      | none => simp [hj] at he
      | some pd =>
        have hg : pd.got = [] := (hi.single h1).2.2.2 pd (List.mem_of_getElem? hj)
        cases span with
        | none =>
          simp [hj] at he
          obtain ⟨he, -⟩ := he
          subst he
          simp [hg]
          exact ih
        | some p =>
          simp [hj, h1] at he
          obtain ⟨he, -⟩ := he
          subst he
          exact ih
    | insert batch =>
      unfold step insert at he
      dsimp only at he
      by_cases hn : batch.length = 0 ∨ kMaxObjectsToMove < batch.length
      · rw [if_pos hn] at he; cases he
      · rw [if_neg hn] at he
        cases hm : mapObjects k x.c batch with
        | none => rw [hm] at he; cases he
        | some spans => rw [hm] at he; dsimp only at he; rw [if_pos h1] at he; cases he; exact ih

/-- For every class: the free objects the central free list counts are the objects of its spans that are not with callers. -/
theorem free_exact (hk : k.OK) (x : World) (h : Reach k x) :
    length x.c = (((x.sp.map fun p => k.count - (outOf k x p).length).sum + (inHand x.c).length : Nat) : Int) := by
  by_cases h1 : k.count = 1
  · obtain ⟨c1, -⟩ := single_counters hk h1 x h
    obtain ⟨live, hi⟩ := h.inv hk
    have h2 := (hi.single h1).2.2.2
    have h3 : inHand x.c = [] := by
      unfold inHand
      rw [List.flatMap_eq_nil_iff]; exact h2
    have h4 : (x.sp.map fun p => k.count - (outOf k x p).length).sum = 0 := by
      rw [List.sum_eq_zero_iff_forall_eq_nat]
      intro a ha
      obtain ⟨p, hp, rfl⟩ := List.mem_map.1 ha
      have := ((no_idle_span hk x h).2.2 p hp).1
      omega
    unfold length
    rw [c1, h3, h4]; rfl
  · exact (stats_exact hk h1 x h).2.1

/-- For every class whose spans are cut as the code cuts them, if one-object spans have no tail: the bytes of the spans are those
of the objects and the overhead the central free list reports. -/
theorem overhead_exact (hk : k.OK) (hcut : k.count = k.numPages * k.pageSize / k.size)
    (hone : k.count = 1 → k.numPages * k.pageSize % k.size = 0) (x : World) (h : Reach k x) :
    x.sp.length * (k.numPages * k.pageSize) = x.sp.length * k.count * k.size + overheadBytes k x.c := by
  have h2 : k.numPages * k.pageSize = k.count * k.size + k.numPages * k.pageSize % k.size := by
    have := Nat.div_add_mod (k.numPages * k.pageSize) k.size
    rw [← hcut, Nat.mul_comm] at this
    exact this.symm
  by_cases h1 : k.count = 1
  · have h3 := hone h1
    obtain ⟨-, c2, c3⟩ := single_counters hk h1 x h
    have h4 : overheadBytes k x.c = 0 := by unfold overheadBytes numSpans; simp [c2, c3]
    rw [h4, Nat.mul_assoc]
    rw [h3] at h2
    rw [h2]; rfl
  · rw [(stats_exact hk h1 x h).2.2.2.2.1, Nat.mul_assoc, ← Nat.mul_add, ← h2]

end Verif.CentralFreeList
