import Verif.HugeCache.Props
/-! Ranges of hugepages held by the parts of the page heap: disjointness and bookkeeping of who owns what. -/
namespace Verif.PageHeap
open Verif.HugeAddressMap Verif.HugeAllocator

/-- The ranges are disjoint, not empty, and cover exactly the hugepages owned. -/
structure Own (ow : PSet) (l : List Rng) : Prop where
  disj : Disj l
  pos : ∀ r ∈ l, 0 < r.n
  cov : ∀ p, ow p ↔ Cov l p

theorem Disj.perm {l l' : List Rng} (h : Disj l) (hp : l.Perm l') : Disj l' := by
  unfold Disj at *
  exact hp.pairwise h (fun {a b} hab p h1 h2 => hab p h2 h1)

theorem cov_perm {l l' : List Rng} (hp : l.Perm l') (p : Nat) : Cov l p ↔ Cov l' p := by
  unfold Cov
  exact ⟨fun ⟨r, hr, h⟩ => ⟨r, hp.mem_iff.1 hr, h⟩, fun ⟨r, hr, h⟩ => ⟨r, hp.mem_iff.2 hr, h⟩⟩

theorem Own.perm {ow : PSet} {l l' : List Rng} (h : Own ow l) (hp : l.Perm l') : Own ow l' :=
  ⟨Disj.perm h.disj hp, fun r hr => h.pos r (hp.mem_iff.2 hr), fun p => (h.cov p).trans (cov_perm hp p)⟩

theorem Own.add {ow : PSet} {l : List Rng} (h : Own ow l) {r : Rng} (hn : 0 < r.n) (hr : ∀ p, r.Has p → ¬ ow p) :
    Own (fun p => ow p ∨ r.Has p) (r :: l) := by
  refine ⟨?_, ?_, ?_⟩
  · unfold Disj
    rw [List.pairwise_cons]
    refine ⟨?_, h.disj⟩
    intro q hq p hp hqp
    exact hr p hp ((h.cov p).2 ⟨q, hq, hqp⟩)
  · intro q hq
    rcases List.mem_cons.1 hq with e | e
    · rw [e]; exact hn
    · exact h.pos q e
  · intro p
    rw [Cov.cons_iff, h.cov p]
    exact Or.comm

theorem Own.remove {ow : PSet} {l : List Rng} {r : Rng} (h : Own ow (r :: l)) : Own (fun p => ow p ∧ ¬ r.Has p) l := by
  have hd := h.disj
  unfold Disj at hd
  rw [List.pairwise_cons] at hd
  refine ⟨hd.2, fun q hq => h.pos q (List.mem_cons_of_mem _ hq), ?_⟩
  intro p
  constructor
  · rintro ⟨h1, h2⟩
    rcases (Cov.cons_iff ..).1 ((h.cov p).1 h1) with h3 | h3
    · exact absurd h3 h2
    · exact h3
  · rintro ⟨q, hq, hp⟩
    exact ⟨(h.cov p).2 ⟨q, List.mem_cons_of_mem _ hq, hp⟩, fun hr => hd.1 q hq p hr hp⟩

theorem Own.split {ow : PSet} {l : List Rng} {s m k : Nat} (hm : 0 < m) (hk : 0 < k) :
    Own ow (⟨s, m + k⟩ :: l) ↔ Own ow (⟨s, m⟩ :: ⟨s + m, k⟩ :: l) := by
  have hhas : ∀ p, (⟨s, m + k⟩ : Rng).Has p ↔ (⟨s, m⟩ : Rng).Has p ∨ (⟨s + m, k⟩ : Rng).Has p := by
    intro p; unfold Rng.Has; simp only []; omega
  have hex : ∀ p, (⟨s, m⟩ : Rng).Has p → ¬ (⟨s + m, k⟩ : Rng).Has p := by
    intro p; unfold Rng.Has; simp only []; omega
  constructor
  · intro h
    have hd := h.disj
    unfold Disj at hd
    rw [List.pairwise_cons] at hd
    refine ⟨?_, ?_, ?_⟩
    · unfold Disj
      rw [List.pairwise_cons, List.pairwise_cons]
      refine ⟨?_, ?_, hd.2⟩
      · intro q hq p h1 h2
        rcases List.mem_cons.1 hq with e | e
        · subst e; exact hex p h1 h2
        · exact hd.1 q e p ((hhas p).2 (Or.inl h1)) h2
      · intro q hq p h1 h2
        exact hd.1 q hq p ((hhas p).2 (Or.inr h1)) h2
    · intro q hq
      rcases List.mem_cons.1 hq with e | e
      · subst e; exact hm
      · rcases List.mem_cons.1 e with e | e
        · subst e; exact hk
        · exact h.pos q (List.mem_cons_of_mem _ e)
    · intro p
      rw [h.cov p, Cov.cons_iff, Cov.cons_iff, Cov.cons_iff, hhas, or_assoc]
  · intro h
    have hd := h.disj
    unfold Disj at hd
    rw [List.pairwise_cons, List.pairwise_cons] at hd
    refine ⟨?_, ?_, ?_⟩
    · unfold Disj
      rw [List.pairwise_cons]
      refine ⟨?_, hd.2.2⟩
      intro q hq p h1 h2
      rcases (hhas p).1 h1 with h1 | h1
      · exact hd.1 q (List.mem_cons_of_mem _ hq) p h1 h2
      · exact hd.2.1 q hq p h1 h2
    · intro q hq
      rcases List.mem_cons.1 hq with e | e
      · subst e; show 0 < m + k; omega
      · exact h.pos q (by simp [e])
    · intro p
      rw [h.cov p, Cov.cons_iff, Cov.cons_iff, Cov.cons_iff, hhas, or_assoc]

theorem Own.apart {ow : PSet} {A B : List Rng} (h : Own ow (A ++ B)) {a b : Rng} (ha : a ∈ A) (hb : b ∈ B) {p : Nat}
    (h1 : a.Has p) : ¬ b.Has p := by
  have := h.disj
  unfold Disj at this
  rw [List.pairwise_append] at this
  exact this.2.2 a ha b hb p h1

theorem apart_le {a b : Rng} (ha : 0 < a.n) (hb : 0 < b.n) (h : ∀ p, a.Has p → ¬ b.Has p) :
    a.s + a.n ≤ b.s ∨ b.s + b.n ≤ a.s := by
  have h1 := h (max a.s b.s)
  unfold Rng.Has at h1
  rcases Nat.le_total a.s b.s with h2 | h2
  · rw [Nat.max_eq_right h2] at h1; omega
  · rw [Nat.max_eq_left h2] at h1; omega

/-! ### Facts about the cache -/

theorem obtained_app (ob : List Rng) (e : HugeCache.Ev) (o : HugeCache.Out) :
    HugeCache.obtained' ob e o = HugeCache.obtained' [] e o ++ ob := by
  unfold HugeCache.obtained'
  split <;> simp

/-- Hugepage 0 is never obtained. -/
theorem ob_nonzero {s : HugeCache.S} {ob : List Rng} {ow : PSet} {u : Nat} (h : HugeCache.Reach s ob ow u) : ¬ Cov ob 0 := by
  induction h with
  | init => simp [Cov]
  | @step s ob ow u e s' o _ hp _ ih =>
    have hsys : ∀ n sys, SysOK ob n sys → ¬ Cov (sys.toList ++ ob) 0 := by
      intro n sys hs hc
      rcases (Cov.append_iff ..).1 hc with hc | hc
      · obtain ⟨r, hr, hz⟩ := hc
        have he : sys = some r := by simpa using hr
        have := (hs r he).2.1
        unfold Rng.Has at hz; omega
      · exact ih hc
    unfold HugeCache.obtained'
    split
    · exact hsys _ _ hp.2
    · exact hsys _ _ hp.2
    · exact ih

theorem ow_nonzero {s : HugeCache.S} {ob : List Rng} {ow : PSet} {u : Nat} (h : HugeCache.Reach s ob ow u) : ¬ ow 0 :=
  fun hc => ob_nonzero h (((HugeCache.conservation h).1 0).2 (Or.inr (Or.inr (Or.inr hc))))

open HugeCache in
theorem start_taken {s s' : S} {t r : Nat} {k : Cont} {o : Out} (e : start s t r k = some (s', o)) : s'.taken = s.taken := by
  unfold start at e
  repeat' split at e
  all_goals first
    | (cases e; done)
    | (cases e; rfl)

open HugeCache in
theorem finish_taken (s : S) (r : Nat) (k : Fin) : (finish s r k).1.taken = s.taken := by cases k <;> rfl

open HugeCache in
theorem shrinkF_taken {s s' : S} {t r : Nat} {k : Fin} {o : Out} (e : shrinkF s t r k = some (s', o)) : s'.taken = s.taken := by
  unfold shrinkF at e
  split at e
  · exact start_taken e
  · have h := finish_taken s r k
    simp only [Option.some.injEq] at e
    rw [e] at h; exact h

open HugeCache in
theorem resume_taken {s s' : S} {r : Nat} {k : Cont} {o : Out} (e : resume s r k = some (s', o)) : s'.taken = s.taken := by
  cases k with
  | relA => exact (shrinkF_taken e).trans rfl
  | rcpA n =>
    unfold resume at e
    simp only [] at e
    split at e
    · exact shrinkF_taken e
    · have h := finish_taken s 0 (.rcpB r)
      simp only [Option.some.injEq] at e
      rw [e] at h; exact h
  | fin k =>
    have h := finish_taken s r k
    unfold resume at e
    simp only [Option.some.injEq] at e
    rw [e] at h; exact h

open HugeCache in
theorem shrink_taken {s s' : S} {t r : Nat} {k : Cont} {o : Out} (e : shrink s t r k = some (s', o)) : s'.taken = s.taken := by
  unfold shrink at e
  split at e
  · exact start_taken e
  · exact resume_taken e

open HugeCache in
theorem maybeShrinkLimit_taken {s s' : S} {m : Nat} {k : Cont} {o : Out} (e : maybeShrinkLimit s m k = some (s', o)) :
    s'.taken = s.taken := by
  unfold maybeShrinkLimit at e
  split at e
  · exact resume_taken e
  · exact (shrink_taken e).trans rfl

open HugeCache in
/-- Only `take` changes what others took. -/
theorem step_taken {s s' : S} {e : Ev} {o : Out} (h : HugeCache.step s e = some (s', o)) (hne : ∀ n sys, e ≠ .take n sys) :
    s'.taken = s.taken := by
  cases e with
  | take n sys => exact absurd rfl (hne n sys)
  | get n fr sys a b =>
    unfold HugeCache.step at h
    simp only [HugeCache.get, maybeGrowLimit] at h
    repeat' split at h
    all_goals first
      | (cases h; done)
      | (cases h; rfl)
      | (simp only [Option.some.injEq, Prod.mk.injEq] at h; rw [← h.1])
    all_goals split <;> rfl
  | release r el ms =>
    unfold HugeCache.step at h
    simp only [HugeCache.release] at h
    split at h
    · cases h
    · split at h
      · exact (maybeShrinkLimit_taken h).trans rfl
      · exact (resume_taken h).trans rfl
  | releaseUnbacked r =>
    unfold HugeCache.step at h
    simp only [HugeCache.releaseUnbacked] at h
    split at h
    · cases h
    · cases h; rfl
  | releaseCached n ms => exact maybeShrinkLimit_taken h
  | answer i ok =>
    unfold HugeCache.step at h
    simp only [HugeCache.answer] at h
    repeat' split at h
    all_goals first
      | (cases h; done)
      | exact (shrink_taken h).trans rfl
      | exact (resume_taken h).trans rfl

end Verif.PageHeap
