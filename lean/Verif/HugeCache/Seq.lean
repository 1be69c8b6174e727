import Verif.HugeCache.Lemmas
/-! A call run to its end without interference. -/
namespace Verif.HugeCache
open Verif.HugeAddressMap Verif.HugeAllocator

/-! ### ReleaseCachedPages -/

/-- The waiting call of `ReleaseCachedPages(n)` entered with `size0` cached. -/
def W (size0 n : Nat) (s : S) (p : Pend) : Prop :=
  0 < p.r.n ∧
  ((p.k = .rcpA n ∧ s.size + p.r.n + p.removed = size0) ∨
    ∃ rel, p.k = .fin (.rcpB rel) ∧ s.size + p.r.n + p.removed + rel = size0 ∧ p.target ≤ size0 - n)

def late (p : Pend) : Nat := match p.k with | .fin _ => 0 | _ => 1

def Good (rest : List Pend) (size0 n : Nat) (c : Prop) (s : S) (o : Out) : Prop :=
  (∃ v, o = .released v ∧ s.inflight = rest ∧ v + s.size = size0 ∧ (c → s.size ≤ size0 - n)) ∨
  (o = .waiting ∧ ∃ p, s.inflight = rest ++ [p] ∧ W size0 n s p)

/-- Enough answers for a state. -/
def Enough (s : S) (o : Out) (N : Nat) : Prop :=
  o = .waiting → ∀ p ∈ s.inflight.getLast?, s.size + p.r.n + late p ≤ N

theorem shrinkF_good {s : S} {ob : List Rng} {ow : PSet} {u : Nat} {target removed rel size0 n N : Nat} {c : Prop}
    (h : K s ob ow u (removed + rel)) (hs : s.size + removed + rel = size0) (ht : target ≤ size0 - n)
    (hN : s.size ≤ N) :
    ∃ s' o, shrinkF s target removed (.rcpB rel) = some (s', o) ∧ K s' ob ow u 0 ∧
      Good s.inflight size0 n c s' o ∧ Enough s' o N := by
  unfold shrinkF
  by_cases hgt : s.size > target
  · rw [if_pos hgt]
    obtain ⟨s', r, e1, e2, e3, e4, e5, e6, e7⟩ := start_spec h (k := .fin (.rcpB rel)) hgt rfl
    refine ⟨s', _, e1, e2, Or.inr ⟨rfl, _, e7, e4, Or.inr ⟨rel, rfl, by simp only []; omega, ht⟩⟩, ?_⟩
    intro _ p hp
    rw [e7] at hp
    simp at hp
    subst hp
    simp only [late]; omega
  · rw [if_neg hgt]
    refine ⟨_, _, rfl, finish_spec (k := .rcpB rel) (removed := removed) h rfl, Or.inl ⟨rel + removed, rfl, rfl, ?_, fun _ => ?_⟩, ?_⟩
    · simp only [finish]; omega
    · simp only [finish]; omega
    · intro x; simp [finish] at x

theorem resume_rcpA {s : S} {ob : List Rng} {ow : PSet} {u removed n size0 N : Nat} {c : Prop}
    (h : K s ob ow u removed) (hs : s.size + removed = size0) (hN : s.size ≤ N) :
    ∃ s' o, resume s removed (.rcpA n) = some (s', o) ∧ K s' ob ow u 0 ∧ Good s.inflight size0 n c s' o ∧
      Enough s' o N := by
  simp only [resume]
  by_cases hn : removed < n
  · rw [if_pos hn]
    refine shrinkF_good (removed := 0) (rel := removed) (by simpa using h) (by omega) ?_ hN
    split <;> omega
  · rw [if_neg hn]
    refine ⟨_, _, rfl, finish_spec (k := .rcpB removed) (removed := 0) h (by simp [Fin.rel]),
      Or.inl ⟨removed + 0, rfl, rfl, ?_, fun _ => ?_⟩, fun x => by simp [finish] at x⟩
    · simp only [finish]; omega
    · simp only [finish]; omega

theorem shrink_rcpA {s : S} {ob : List Rng} {ow : PSet} {u target removed n size0 N : Nat} {c : Prop}
    (h : K s ob ow u removed) (hs : s.size + removed = size0) (hN : s.size + 1 ≤ N) :
    ∃ s' o, shrink s target removed (.rcpA n) = some (s', o) ∧ K s' ob ow u 0 ∧ Good s.inflight size0 n c s' o ∧
      Enough s' o N := by
  unfold shrink
  by_cases hgt : s.size > target
  · rw [if_pos hgt]
    obtain ⟨s', r, e1, e2, e3, e4, e5, e6, e7⟩ := start_spec h (k := .rcpA n) (removed := removed) hgt rfl
    refine ⟨s', _, e1, e2, Or.inr ⟨rfl, _, e7, e4, Or.inl ⟨rfl, by simp only []; omega⟩⟩, ?_⟩
    intro _ p hp
    rw [e7] at hp
    simp at hp
    subst hp
    simp only [late]; omega
  · rw [if_neg hgt]; exact resume_rcpA h hs (by omega)

theorem releaseCached_good {s : S} {ob : List Rng} {ow : PSet} {u n : Nat} {c : Prop} (h : K s ob ow u 0) (ms : Nat) :
    ∃ s' o, releaseCached s n ms = some (s', o) ∧ K s' ob ow u 0 ∧ Good s.inflight s.size n c s' o ∧
      Enough s' o (s.size + 1) := by
  unfold releaseCached maybeShrinkLimit
  by_cases hm : ms < s.limit / 5
  · rw [if_pos hm]; exact resume_rcpA h (by omega) (by omega)
  · rw [if_neg hm]
    exact shrink_rcpA (h.limit (Nat.le_max_right _ _)) (by simp) (by simp)

theorem last_split {s : S} {rest : List Pend} {p : Pend} (h : s.inflight = rest ++ [p]) :
    s.inflight[s.inflight.length - 1]? = some p ∧ s.inflight.eraseIdx (s.inflight.length - 1) = rest := by
  rw [h]
  constructor
  · simp
  · simp [List.eraseIdx_append]

theorem answer_good {s : S} {ob : List Rng} {ow : PSet} {u : Nat} {rest : List Pend} {size0 n N : Nat} {c : Prop}
    (h : K s ob ow u 0) {p : Pend} (hp : s.inflight = rest ++ [p]) (w : W size0 n s p)
    (hN : s.size + p.r.n + late p ≤ N + 1) (ok : Bool) (hc : ok = false → ¬ c) :
    ∃ s' o u', answer s (s.inflight.length - 1) ok = some (s', o) ∧ K s' ob ow u' 0 ∧ Good rest size0 n c s' o ∧
      Enough s' o N := by
  obtain ⟨l1, l2⟩ := last_split hp
  unfold answer
  rw [l1]
  simp only [l2]
  obtain ⟨w0, w⟩ := w
  cases ok with
  | true =>
    obtain ⟨al, r1, r2⟩ := answer_ok h (A := rest) (B := []) hp
    rw [if_pos rfl, r1]
    simp only [List.append_nil] at r2
    rcases w with ⟨k, w⟩ | ⟨rel, k, w, w2⟩
    · simp only [k]
      rw [k] at r2
      simp only [late, k] at hN
      obtain ⟨s', o, a1, a2, a3, a4⟩ := shrink_rcpA (n := n) (target := p.target) (size0 := size0) (N := N) (c := c) r2
        (by simp only [Cont.rel]; omega) (by simp only []; omega)
      exact ⟨s', o, _, a1, a2, a3, a4⟩
    · simp only [k]
      rw [k] at r2
      simp only [late, k] at hN
      obtain ⟨s', o, a1, a2, a3, a4⟩ := shrinkF_good (n := n) (target := p.target) (size0 := size0) (N := N) (c := c)
        (removed := p.removed + p.r.n) (rel := rel) r2
        (by simp only []; omega) w2 (by simp only []; omega)
      exact ⟨s', o, _, a1, a2, a3, a4⟩
  | false =>
    obtain ⟨m, r1, r2⟩ := answer_fail h (A := rest) (B := []) hp
    rw [if_neg (by simp), r1]
    simp only [List.append_nil] at r2
    rcases w with ⟨k, w⟩ | ⟨rel, k, w, w2⟩
    · simp only [k]
      rw [k] at r2
      simp only [late, k] at hN
      obtain ⟨s', o, a1, a2, a3, a4⟩ := resume_rcpA (n := n) (size0 := size0) (N := N) (c := c) r2
        (by simp only [Cont.rel]; omega) (by simp only []; omega)
      exact ⟨s', o, _, a1, a2, a3, a4⟩
    · simp only [k]
      rw [k] at r2
      refine ⟨_, _, u, rfl, finish_spec (k := .rcpB rel) (removed := p.removed) r2 rfl, Or.inl ⟨rel + p.removed, rfl, rfl, ?_, fun hcc => absurd hcc (hc rfl)⟩,
        fun x => by simp [finish] at x⟩
      simp only [finish]; omega

theorem drain_good {rest : List Pend} {size0 n : Nat} {ob : List Rng} {ow : PSet} : ∀ (ans : List Bool) (s : S)
    (o : Out) (u : Nat) (c : Prop), (c → ∀ b ∈ ans, b = true) →
    K s ob ow u 0 → Good rest size0 n c s o → Enough s o ans.length →
    ∃ s' v, drain ans s o = some (s', .released v) ∧ s'.inflight = rest ∧ v + s'.size = size0 ∧
      (c → s'.size ≤ size0 - n) := by
  intro ans
  induction ans with
  | nil =>
    intro s o u c _ h g hE
    rcases g with ⟨v, rfl, g1, g2, g3⟩ | ⟨rfl, p, hp, w⟩
    · exact ⟨s, v, rfl, g1, g2, g3⟩
    · have := hE rfl p (by rw [hp]; simp)
      have := w.1
      simp at *; omega
  | cons b bs ih =>
    intro s o u c hc h g hE
    rcases g with ⟨v, rfl, g1, g2, g3⟩ | ⟨rfl, p, hp, w⟩
    · exact ⟨s, v, rfl, g1, g2, g3⟩
    · have hN := hE rfl p (by rw [hp]; simp)
      simp only [List.length_cons] at hN
      obtain ⟨s', o', u', e1, e2, e3, e4⟩ := answer_good (c := c) h hp w hN b
        (fun hb hcc => by have := hc hcc b (by simp); rw [hb] at this; simp at this)
      simp only [drain, e1]
      exact ih s' o' u' c (fun hcc x hx => hc hcc x (by simp [hx])) e2 e3 e4

/-! ### Release -/

/-- The waiting call of `Release`; `F` = cached and unbacked-by-releases together. -/
def W' (F : Nat) (s : S) (p : Pend) : Prop :=
  0 < p.r.n ∧ s.fast + s.size + p.r.n + p.removed = F ∧ (p.k = .relA ∨ (p.k = .fin .relB ∧ p.target = s.limit))

def Good' (rest : List Pend) (F : Nat) (c : Prop) (s : S) (o : Out) : Prop :=
  (o = .ret ∧ s.inflight = rest ∧ s.fast + s.size = F ∧ (c → s.size ≤ s.limit)) ∨
  (o = .waiting ∧ ∃ p, s.inflight = rest ++ [p] ∧ W' F s p)

theorem shrinkF_good' {s : S} {ob : List Rng} {ow : PSet} {u : Nat} {removed F N : Nat} {c : Prop}
    (h : K s ob ow u removed) (hs : s.fast + s.size + removed = F) (hN : s.size ≤ N) :
    ∃ s' o, shrinkF s s.limit removed .relB = some (s', o) ∧ K s' ob ow u 0 ∧
      Good' s.inflight F c s' o ∧ Enough s' o N := by
  unfold shrinkF
  by_cases hgt : s.size > s.limit
  · rw [if_pos hgt]
    have hfast : ∀ s', (∃ r, start s s.limit removed (.fin .relB) = some (s', Out.waiting) ∧ r = removed) → s'.fast = s.fast := by
      rintro s' ⟨_, e, _⟩
      unfold start at e
      split at e
      · simp at e
      · split at e
        · simp at e
        · simp only [Option.some.injEq, Prod.mk.injEq, and_true] at e
          rw [← e]
    obtain ⟨s', r, e1, e2, e3, e4, e5, e6, e7⟩ := start_spec h (k := .fin .relB) hgt rfl
    have hf := hfast s' ⟨removed, e1, rfl⟩
    refine ⟨s', _, e1, e2, Or.inr ⟨rfl, _, e7, e4, by simp only []; omega, Or.inr ⟨rfl, e3.symm⟩⟩, ?_⟩
    intro _ p hp
    rw [e7] at hp
    simp at hp
    subst hp
    simp only [late]; omega
  · rw [if_neg hgt]
    refine ⟨_, _, rfl, finish_spec (k := .relB) (removed := removed) h rfl, Or.inl ⟨rfl, rfl, ?_, fun _ => ?_⟩, ?_⟩
    · simp only [finish]; omega
    · simp only [finish]; omega
    · intro x; simp [finish] at x

theorem resume_relA {s : S} {ob : List Rng} {ow : PSet} {u removed F N : Nat} {c : Prop}
    (h : K s ob ow u removed) (hs : s.fast + s.size + removed = F) (hN : s.size ≤ N) :
    ∃ s' o, resume s removed .relA = some (s', o) ∧ K s' ob ow u 0 ∧ Good' s.inflight F c s' o ∧ Enough s' o N := by
  simp only [resume]
  exact shrinkF_good' (removed := 0) h.fast (by simp only []; omega) hN

theorem shrink_relA {s : S} {ob : List Rng} {ow : PSet} {u target removed F N : Nat} {c : Prop}
    (h : K s ob ow u removed) (hs : s.fast + s.size + removed = F) (hN : s.size + 1 ≤ N) :
    ∃ s' o, shrink s target removed .relA = some (s', o) ∧ K s' ob ow u 0 ∧ Good' s.inflight F c s' o ∧
      Enough s' o N := by
  unfold shrink
  by_cases hgt : s.size > target
  · rw [if_pos hgt]
    have hfast : ∀ s', start s target removed .relA = some (s', Out.waiting) → s'.fast = s.fast := by
      intro s' e
      unfold start at e
      split at e
      · simp at e
      · split at e
        · simp at e
        · simp only [Option.some.injEq, Prod.mk.injEq, and_true] at e
          rw [← e]
    obtain ⟨s', r, e1, e2, e3, e4, e5, e6, e7⟩ := start_spec h (k := .relA) (removed := removed) hgt rfl
    have hf := hfast s' e1
    refine ⟨s', _, e1, e2, Or.inr ⟨rfl, _, e7, e4, by simp only []; omega, Or.inl rfl⟩, ?_⟩
    intro _ p hp
    rw [e7] at hp
    simp at hp
    subst hp
    simp only [late]; omega
  · rw [if_neg hgt]; exact resume_relA h hs (by omega)

theorem release_good {s : S} {ob : List Rng} {ow : PSet} {u : Nat} {c : Prop} (h : K s ob ow u 0) {r : Rng}
    (hr : 0 < r.n) (how : ∀ p, r.Has p → ow p) (hnt : ∀ p, r.Has p → ¬ Cov s.taken p) (el : Bool) (ms : Nat) :
    ∃ s' o, release s r el ms = some (s', o) ∧ K s' ob (fun p => ow p ∧ ¬ r.Has p) u 0 ∧
      Good' s.inflight (s.fast + s.size + r.n) c s' o ∧ Enough s' o (s.size + r.n + 1) := by
  obtain ⟨m, i1, i2, i3⟩ := release_step h hr how hnt
  unfold release
  rw [i1]
  simp only []
  cases el with
  | false =>
    rw [if_neg (by simp)]
    exact resume_relA i3 (by simp only []; omega) (by simp only []; omega)
  | true =>
    rw [if_pos rfl]
    unfold maybeShrinkLimit
    split
    · exact resume_relA i3 (by simp only []; omega) (by simp only []; omega)
    · exact shrink_relA (i3.limit (Nat.le_max_right _ _)) (by simp only []; omega) (by simp)

theorem answer_good' {s : S} {ob : List Rng} {ow : PSet} {u : Nat} {rest : List Pend} {F N : Nat} {c : Prop}
    (h : K s ob ow u 0) {p : Pend} (hp : s.inflight = rest ++ [p]) (w : W' F s p)
    (hN : s.size + p.r.n + late p ≤ N + 1) (ok : Bool) (hc : ok = false → ¬ c) :
    ∃ s' o u', answer s (s.inflight.length - 1) ok = some (s', o) ∧ K s' ob ow u' 0 ∧ Good' rest F c s' o ∧
      Enough s' o N := by
  obtain ⟨l1, l2⟩ := last_split hp
  unfold answer
  rw [l1]
  simp only [l2]
  obtain ⟨w0, w1, w⟩ := w
  cases ok with
  | true =>
    obtain ⟨al, r1, r2⟩ := answer_ok h (A := rest) (B := []) hp
    rw [if_pos rfl, r1]
    simp only [List.append_nil] at r2
    rcases w with k | ⟨k, w2⟩
    · simp only [k]
      rw [k] at r2
      simp only [late, k] at hN
      obtain ⟨s', o, a1, a2, a3, a4⟩ := shrink_relA (target := p.target) (F := F) (N := N) (c := c) r2
        (by simp only [Cont.rel]; omega) (by simp only []; omega)
      exact ⟨s', o, _, a1, a2, a3, a4⟩
    · simp only [k]
      rw [k] at r2
      simp only [late, k] at hN
      rw [w2]
      obtain ⟨s', o, a1, a2, a3, a4⟩ := shrinkF_good' (F := F) (N := N) (c := c)
        (removed := p.removed + p.r.n) r2
        (by simp only []; omega) (by simp only []; omega)
      exact ⟨s', o, _, a1, a2, a3, a4⟩
  | false =>
    obtain ⟨m, r1, r2⟩ := answer_fail h (A := rest) (B := []) hp
    rw [if_neg (by simp), r1]
    simp only [List.append_nil] at r2
    rcases w with k | ⟨k, w2⟩
    · simp only [k]
      rw [k] at r2
      simp only [late, k] at hN
      obtain ⟨s', o, a1, a2, a3, a4⟩ := resume_relA (F := F) (N := N) (c := c) r2
        (by simp only [Cont.rel]; omega) (by simp only []; omega)
      exact ⟨s', o, _, a1, a2, a3, a4⟩
    · simp only [k]
      rw [k] at r2
      refine ⟨_, _, u, rfl, finish_spec (k := .relB) (removed := p.removed) r2 rfl, Or.inl ⟨rfl, rfl, ?_, fun hcc => absurd hcc (hc rfl)⟩,
        fun x => by simp [finish] at x⟩
      simp only [finish]; omega

theorem drain_good' {rest : List Pend} {F : Nat} {ob : List Rng} {ow : PSet} : ∀ (ans : List Bool) (s : S) (o : Out) (u : Nat)
    (c : Prop), (c → ∀ b ∈ ans, b = true) →
    K s ob ow u 0 → Good' rest F c s o → Enough s o ans.length →
    ∃ s', drain ans s o = some (s', .ret) ∧ s'.inflight = rest ∧ s'.fast + s'.size = F ∧ (c → s'.size ≤ s'.limit) := by
  intro ans
  induction ans with
  | nil =>
    intro s o u c _ h g hE
    rcases g with ⟨rfl, g1, g2, g3⟩ | ⟨rfl, p, hp, w⟩
    · exact ⟨s, rfl, g1, g2, g3⟩
    · have := hE rfl p (by rw [hp]; simp)
      have := w.1
      simp at *; omega
  | cons b bs ih =>
    intro s o u c hc h g hE
    rcases g with ⟨rfl, g1, g2, g3⟩ | ⟨rfl, p, hp, w⟩
    · exact ⟨s, rfl, g1, g2, g3⟩
    · have hN := hE rfl p (by rw [hp]; simp)
      simp only [List.length_cons] at hN
      obtain ⟨s', o', u', e1, e2, e3, e4⟩ := answer_good' (c := c) h hp w hN b
        (fun hb hcc => by have := hc hcc b (by simp); rw [hb] at this; simp at this)
      simp only [drain, e1]
      exact ih s' o' u' c (fun hcc x hx => hc hcc x (by simp [hx])) e2 e3 e4

/-! ### The total never decreases -/

theorem start_fast {s s' : S} {t r : Nat} {k : Cont} {o : Out} (e : start s t r k = some (s', o)) : s'.fast = s.fast := by
  unfold start at e
  split at e
  · simp at e
  · split at e
    · simp at e
    · simp only [Option.some.injEq, Prod.mk.injEq] at e
      rw [← e.1]

theorem finish_fast (s : S) (r : Nat) (k : Fin) : s.fast ≤ (finish s r k).1.fast := by
  cases k <;> simp [finish]

theorem shrinkF_fast {s s' : S} {t r : Nat} {k : Fin} {o : Out} (e : shrinkF s t r k = some (s', o)) :
    s.fast ≤ s'.fast := by
  unfold shrinkF at e
  split at e
  · exact Nat.le_of_eq (start_fast e).symm
  · simp only [Option.some.injEq] at e
    have := finish_fast s r k
    rw [e] at this
    exact this

theorem resume_fast {s s' : S} {r : Nat} {k : Cont} {o : Out} (e : resume s r k = some (s', o)) :
    s.fast ≤ s'.fast := by
  cases k with
  | relA =>
    have := shrinkF_fast e
    simp only [] at this; omega
  | rcpA n =>
    simp only [resume] at e
    generalize (if n - r > s.size then 0 else s.size - (n - r)) = t at e
    split at e
    · exact shrinkF_fast e
    · simp only [Option.some.injEq] at e
      have := finish_fast s 0 (.rcpB r)
      rw [e] at this
      exact this
  | fin k =>
    simp only [resume, Option.some.injEq] at e
    have := finish_fast s r k
    rw [e] at this
    exact this

theorem shrink_fast {s s' : S} {t r : Nat} {k : Cont} {o : Out} (e : shrink s t r k = some (s', o)) :
    s.fast ≤ s'.fast := by
  unfold shrink at e
  split at e
  · exact Nat.le_of_eq (start_fast e).symm
  · exact resume_fast e

theorem step_fast {s s' : S} {r : Rng} {el : Bool} {ms : Nat} {o : Out}
    (e : step s (.release r el ms) = some (s', o)) : s.fast ≤ s'.fast := by
  simp only [step, release] at e
  split at e
  · simp at e
  · split at e
    · unfold maybeShrinkLimit at e
      split at e
      · (have hh := resume_fast e; exact hh)
      · (have hh := shrink_fast e; exact hh)
    · (have hh := resume_fast e; exact hh)

theorem answer_fast {s s' : S} {i : Nat} {b : Bool} {o : Out} (e : answer s i b = some (s', o)) :
    s.fast ≤ s'.fast := by
  unfold answer at e
  split at e
  · simp at e
  · simp only [] at e
    split at e
    · split at e
      · simp at e
      · (have hh := shrink_fast e; exact hh)
    · split at e
      · simp at e
      · (have hh := resume_fast e; exact hh)

theorem drain_fast : ∀ (ans : List Bool) (s : S) (o : Out) {s' : S} {o' : Out}, drain ans s o = some (s', o') →
    s.fast ≤ s'.fast := by
  intro ans
  induction ans with
  | nil =>
    intro s o s' o' e
    simp only [drain, Option.some.injEq, Prod.mk.injEq] at e
    rw [e.1]; exact Nat.le_refl _
  | cons b bs ih =>
    intro s o s' o' e
    cases o with
    | waiting =>
      simp only [drain] at e
      split at e
      · simp at e
      · rename_i heq
        exact Nat.le_trans (answer_fast heq) (ih _ _ e)
    | _ =>
      simp only [drain, Option.some.injEq, Prod.mk.injEq] at e
      rw [e.1]; exact Nat.le_refl _

end Verif.HugeCache
