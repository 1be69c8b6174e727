import Verif.HugeCache.Spec
import Verif.HugeAllocator.Lemmas
namespace Verif.HugeCache
open Verif.HugeAddressMap Verif.HugeAllocator

theorem insert_total {m m' : HMap} {r : Rng} (h : Inv m) (h' : Inv m')
    (hd : ∀ p, r.Has p → ¬ Cov (ranges m.root) p)
    (hc : ∀ p, Cov (ranges m'.root) p ↔ Cov (ranges m.root) p ∨ r.Has p) : m'.total = m.total + r.n := by
  have hdj : Disj (r :: ranges m.root) :=
    List.pairwise_cons.2 ⟨fun b hb p hp hbp => hd p hp ⟨b, hb, hbp⟩, Sep.disj h.sep⟩
  have g1 : lenSum (r :: ranges m.root) ≤ lenSum (ranges m'.root) :=
    lenSum_le hdj (fun p hp => (hc p).2 (Cov.cons_iff.1 hp).symm)
  have g2 : lenSum (ranges m'.root) ≤ lenSum (r :: ranges m.root) :=
    lenSum_le (Sep.disj h'.sep) (fun p hp => Cov.cons_iff.2 ((hc p).1 hp).symm)
  rw [h'.total, h.total]
  simp only [lenSum] at g1 g2
  omega

theorem takeMap_spec {m : HMap} (h : Inv m) {q : Rng} {n : Nat} (hn : 0 < n)
    (hq : q ∈ ranges m.root) (hle : n ≤ q.n) :
    ∃ m', takeMap m q n = some (m', ⟨q.s, n⟩) ∧ Inv m' ∧ m'.total + n = m.total ∧
      (∀ p, (⟨q.s, n⟩ : Rng).Has p → Cov (ranges m.root) p) ∧
      ∀ p, Cov (ranges m'.root) p ↔ Cov (ranges m.root) p ∧ ¬ (⟨q.s, n⟩ : Rng).Has p := by
  obtain ⟨A, B, e⟩ := List.append_of_mem hq
  obtain ⟨f, e1, e2, e3, _⟩ := remove_spec h e
  have hsep := h.sep
  rw [e] at hsep
  have hcov := cov_remove hsep
  rw [← e, ← e2] at hcov
  have hqhas : ∀ p, q.Has p → Cov (ranges m.root) p := fun p hp => ⟨q, hq, hp⟩
  have htot : m.total = f.total + q.n := by
    rw [h.total, e3.total, e, e2, lenSum_append, lenSum_append, lenSum]; omega
  unfold takeMap
  rw [e1]
  simp only []
  by_cases hgt : q.n > n
  · rw [if_pos hgt]
    have hd : ∀ p, (⟨q.s + n, q.n - n⟩ : Rng).Has p → ¬ Cov (ranges f.root) p := by
      intro p hp hc
      exact ((hcov p).1 hc).2 (by unfold Rng.Has at *; simp only [] at hp; omega)
    obtain ⟨m2, i1, i2, i3⟩ := (insert_spec e3 (r := ⟨q.s + n, q.n - n⟩) (by simp only []; omega)).2 hd
    have ht := insert_total e3 i2 hd i3
    rw [i1]
    refine ⟨m2, rfl, i2, by simp only [] at ht; omega, ?_, ?_⟩
    · intro p hp; exact hqhas p (by unfold Rng.Has at *; simp only [] at hp; omega)
    · intro p
      rw [i3 p, hcov p]
      constructor
      · rintro (⟨a, b⟩ | a)
        · exact ⟨a, fun hp => b (by unfold Rng.Has at *; simp only [] at hp; omega)⟩
        · refine ⟨hqhas p (by unfold Rng.Has at *; simp only [] at a; omega), fun hp => ?_⟩
          unfold Rng.Has at *; simp only [] at *; omega
      · rintro ⟨a, b⟩
        by_cases hqp : q.Has p
        · right; unfold Rng.Has at *; simp only [] at *; omega
        · exact Or.inl ⟨a, hqp⟩
  · rw [if_neg hgt]
    have hqn : q.n = n := by omega
    subst hqn
    exact ⟨f, rfl, e3, by omega, hqhas, hcov⟩

/-! ### The invariant -/

def Cont.rel : Cont → Nat
  | .fin (.rcpB rel) => rel
  | _ => 0
def Fin.rel : Fin → Nat
  | .rcpB rel => rel
  | .relB => 0

def pendSum : List Pend → Nat
  | [] => 0
  | p :: ps => p.removed + p.k.rel + pendSum ps

theorem pendSum_append (A B : List Pend) : pendSum (A ++ B) = pendSum A + pendSum B := by
  induction A with
  | nil => simp [pendSum]
  | cons a A ih => simp only [List.cons_append, pendSum, ih]; omega

/-- `e` = hugepages this call has unbacked and not yet recorded. -/
structure K (s : S) (ob : List Rng) (ow : PSet) (u e : Nat) : Prop where
  inv : Inv s.cache
  size : s.size = s.cache.total
  j : J s.alloc ob (fun p => Cov (ranges s.cache.root) p ∨ Cov s.busy p ∨ ow p)
  pos : ∀ r ∈ s.busy, 0 < r.n
  disj : Disj s.busy
  cb : ∀ p, Cov (ranges s.cache.root) p → ¬ Cov s.busy p
  co : ∀ p, Cov (ranges s.cache.root) p → ¬ ow p
  bo : ∀ p, Cov s.busy p → ¬ ow p
  cnt : s.alloc.inUse = s.size + lenSum s.busy + s.usage + lenSum s.taken
  lim : minLimit ≤ s.limit
  unb : s.fast + s.periodic + pendSum s.inflight + e = u
  tk : Disj s.taken
  tsub : ∀ p, Cov s.taken p → ow p

theorem K.init : K S.init [] (fun _ => False) 0 0 := by
  refine ⟨Inv.init, rfl, ?_, by simp [S.busy, S.init], by simp [S.busy, S.init, Disj], ?_, ?_, ?_, rfl, by decide, rfl,
    by simp [S.init, Disj], by simp [S.init, Cov]⟩
  · have : (fun p => Cov (ranges S.init.cache.root) p ∨ Cov S.init.busy p ∨ False) = (fun _ => False) := by
      funext p
      simp [S.init, S.busy, HMap.init, ranges, Cov]
    rw [this]
    exact J.init
  · intro p hp; simp [S.init, HMap.init, ranges, Cov] at hp
  · intro p _ h; exact h
  · intro p _ h; exact h

theorem busy_append (s : S) (p : Pend) : ({ s with inflight := s.inflight ++ [p] } : S).busy = s.busy ++ [p.r] := by
  simp [S.busy]

/-- The first round of `ShrinkCache`. -/
theorem start_spec {s : S} {ob : List Rng} {ow : PSet} {u e : Nat} (h : K s ob ow u e) {target removed : Nat}
    {k : Cont} (hgt : s.size > target) (he : e = removed + k.rel) :
    ∃ s' r, start s target removed k = some (s', .waiting) ∧ K s' ob ow u 0 ∧ s'.limit = s.limit ∧
      0 < r.n ∧ s'.size + r.n = s.size ∧ target ≤ s'.size ∧
      s'.inflight = s.inflight ++ [⟨r, target, removed, k⟩] := by
  obtain ⟨f1, f2⟩ := find_none (n := 1) (by omega) h.inv
  unfold start
  cases hf : find 1 s.cache.root none with
  | none =>
    exfalso
    have hall := f1.1 hf
    have hz : ∀ L : List Rng, (∀ r ∈ L, r.n < 1) → lenSum L = 0 := by
      intro L
      induction L with
      | nil => intro _; rfl
      | cons a L ih =>
        intro hL
        have := hL a (by simp)
        have := ih (fun r hr => hL r (by simp [hr]))
        simp only [lenSum]; omega
    have := hz _ hall
    have := h.inv.total
    have := h.size
    omega
  | some q =>
    obtain ⟨q1, q2⟩ := f2 q hf
    simp only []
    generalize hd : (if q.n > s.size - target then s.size - target else q.n) = d
    have hd0 : 0 < d ∧ d ≤ q.n ∧ d ≤ s.size - target := by
      subst hd; split <;> omega
    obtain ⟨m', t1, t2, t3, t4, t5⟩ := takeMap_spec h.inv hd0.1 q2 hd0.2.1
    rw [t1]
    have hsz := h.size
    refine ⟨_, ⟨q.s, d⟩, rfl, ?_, rfl, hd0.1, by simp only []; omega, by simp only []; omega, rfl⟩
    have hbusy : ∀ (c : HMap) (z : Nat), ({ s with cache := c, size := z, inflight := s.inflight ++ [⟨⟨q.s, d⟩, target, removed, k⟩] } : S).busy
        = s.busy ++ [⟨q.s, d⟩] := by
      intro c z; simp [S.busy]
    have hcov1 : ∀ p, Cov (s.busy ++ [⟨q.s, d⟩]) p ↔ Cov s.busy p ∨ (⟨q.s, d⟩ : Rng).Has p := by
      intro p
      rw [Cov.append_iff, Cov.cons_iff, Cov.nil_iff]; simp
    constructor
    · exact t2
    · simp only []; omega
    · rw [hbusy]
      have : (fun p => Cov (ranges m'.root) p ∨ Cov (s.busy ++ [⟨q.s, d⟩]) p ∨ ow p) =
          (fun p => Cov (ranges s.cache.root) p ∨ Cov s.busy p ∨ ow p) := by
        funext p
        apply propext
        rw [t5 p, hcov1 p]
        constructor
        · rintro (⟨a, _⟩ | (a | a) | a)
          · exact Or.inl a
          · exact Or.inr (Or.inl a)
          · exact Or.inl (t4 p a)
          · exact Or.inr (Or.inr a)
        · rintro (a | a | a)
          · by_cases hp : (⟨q.s, d⟩ : Rng).Has p
            · exact Or.inr (Or.inl (Or.inr hp))
            · exact Or.inl ⟨a, hp⟩
          · exact Or.inr (Or.inl (Or.inl a))
          · exact Or.inr (Or.inr a)
      rw [this]
      exact h.j
    · rw [hbusy]
      intro r hr
      rcases List.mem_append.1 hr with hr | hr
      · exact h.pos r hr
      · simp only [List.mem_singleton] at hr; subst hr; exact hd0.1
    · rw [hbusy]
      unfold Disj
      rw [List.pairwise_append]
      refine ⟨h.disj, by simp, ?_⟩
      intro a ha b hb p hpa hpb
      simp only [List.mem_singleton] at hb
      subst hb
      exact h.cb p (t4 p hpb) ⟨a, ha, hpa⟩
    · intro p hp
      rw [hbusy, hcov1]
      have hp' := (t5 p).1 hp
      rintro (a | a)
      · exact h.cb p hp'.1 a
      · exact hp'.2 a
    · intro p hp
      exact h.co p ((t5 p).1 hp).1
    · intro p
      rw [hbusy, hcov1]
      rintro (a | a)
      · exact h.bo p a
      · exact h.co p (t4 p a)
    · rw [hbusy, lenSum_append]
      have := h.cnt
      simp only [lenSum]
      omega
    · exact h.lim
    · have := h.unb
      simp only [pendSum_append, pendSum]
      omega
    · exact h.tk
    · exact h.tsub

theorem finish_spec {s : S} {ob : List Rng} {ow : PSet} {u e : Nat} (h : K s ob ow u e) {removed : Nat}
    {k : Fin} (he : e = removed + k.rel) : K (finish s removed k).1 ob ow u 0 := by
  have := h.unb
  cases k with
  | relB =>
    exact ⟨h.inv, h.size, h.j, h.pos, h.disj, h.cb, h.co, h.bo, h.cnt, h.lim,
      by simp only [finish, Fin.rel] at *; omega, h.tk, h.tsub⟩
  | rcpB rel =>
    exact ⟨h.inv, h.size, h.j, h.pos, h.disj, h.cb, h.co, h.bo, h.cnt, h.lim,
      by simp only [finish, Fin.rel] at *; omega, h.tk, h.tsub⟩

/-- A result that is not a range. -/
def Out.quiet : Out → Prop
  | .got _ _ _ => False
  | _ => True

theorem finish_quiet (s : S) (n : Nat) (k : Fin) : (finish s n k).2.quiet := by
  cases k <;> trivial

theorem shrinkF_spec {s : S} {ob : List Rng} {ow : PSet} {u e : Nat} (h : K s ob ow u e) {target removed : Nat}
    {k : Fin} (he : e = removed + k.rel) :
    ∃ s' o, shrinkF s target removed k = some (s', o) ∧ K s' ob ow u 0 ∧ o.quiet := by
  unfold shrinkF
  by_cases hgt : s.size > target
  · rw [if_pos hgt]
    obtain ⟨s', r, e1, e2, _⟩ := start_spec h (k := .fin k) (removed := removed) hgt
      (by rw [he]; cases k <;> rfl)
    exact ⟨s', _, e1, e2, trivial⟩
  · rw [if_neg hgt]
    exact ⟨_, _, rfl, finish_spec h he, finish_quiet s removed k⟩

theorem K.fast {s : S} {ob : List Rng} {ow : PSet} {u e : Nat} (h : K s ob ow u e) :
    K { s with fast := s.fast + e } ob ow u 0 :=
  ⟨h.inv, h.size, h.j, h.pos, h.disj, h.cb, h.co, h.bo, h.cnt, h.lim, by have := h.unb; simp only []; omega, h.tk, h.tsub⟩

theorem K.limit {s : S} {ob : List Rng} {ow : PSet} {u e : Nat} (h : K s ob ow u e) {l : Nat}
    (hl : minLimit ≤ l) : K { s with limit := l } ob ow u e :=
  ⟨h.inv, h.size, h.j, h.pos, h.disj, h.cb, h.co, h.bo, h.cnt, hl, h.unb, h.tk, h.tsub⟩

theorem resume_spec {s : S} {ob : List Rng} {ow : PSet} {u e : Nat} (h : K s ob ow u e) {removed : Nat}
    {k : Cont} (he : e = removed + k.rel) :
    ∃ s' o, resume s removed k = some (s', o) ∧ K s' ob ow u 0 ∧ o.quiet := by
  cases k with
  | relA =>
    simp only [Cont.rel, Nat.add_zero] at he
    subst he
    exact shrinkF_spec h.fast rfl
  | rcpA n =>
    simp only [Cont.rel, Nat.add_zero] at he
    subst he
    simp only [resume]
    by_cases hn : e < n
    · rw [if_pos hn]; exact shrinkF_spec h (by simp [Fin.rel])
    · rw [if_neg hn]; exact ⟨_, _, rfl, finish_spec (k := .rcpB e) (removed := 0) h (by simp [Fin.rel]), trivial⟩
  | fin k =>
    exact ⟨_, _, rfl, finish_spec h (by rw [he]; cases k <;> rfl), finish_quiet _ _ _⟩

theorem shrink_spec {s : S} {ob : List Rng} {ow : PSet} {u e : Nat} (h : K s ob ow u e) {target removed : Nat}
    {k : Cont} (he : e = removed + k.rel) :
    ∃ s' o, shrink s target removed k = some (s', o) ∧ K s' ob ow u 0 ∧ o.quiet := by
  unfold shrink
  by_cases hgt : s.size > target
  · rw [if_pos hgt]
    obtain ⟨s', r, e1, e2, _⟩ := start_spec h hgt he
    exact ⟨s', _, e1, e2, trivial⟩
  · rw [if_neg hgt]; exact resume_spec h he

theorem maybeShrinkLimit_spec {s : S} {ob : List Rng} {ow : PSet} {u : Nat} (h : K s ob ow u 0) {minSize : Nat}
    {k : Cont} (hk : k.rel = 0) :
    ∃ s' o, maybeShrinkLimit s minSize k = some (s', o) ∧ K s' ob ow u 0 ∧ o.quiet := by
  unfold maybeShrinkLimit
  by_cases hm : minSize < s.limit / 5
  · rw [if_pos hm]; exact resume_spec h (by omega)
  · rw [if_neg hm]
    exact shrink_spec (h.limit (Nat.le_max_right _ _)) (by omega)

/-! ### Each event -/

theorem usage_le {s : S} {ob : List Rng} {ow : PSet} {u e : Nat} (h : K s ob ow u e) {r : Rng}
    (how : ∀ p, r.Has p → ow p) (hnt : ∀ p, r.Has p → ¬ Cov s.taken p) : r.n ≤ s.usage := by
  have hd0 : Disj (r :: (s.busy ++ (ranges s.cache.root ++ ranges s.alloc.free.root))) := by
    unfold Disj
    rw [List.pairwise_cons, List.pairwise_append, List.pairwise_append]
    refine ⟨?_, h.disj, ⟨Sep.disj h.inv.sep, Sep.disj h.j.inv.sep, ?_⟩, ?_⟩
    · intro b hb p hp hbp
      rcases List.mem_append.1 hb with hb | hb
      · exact h.bo p ⟨b, hb, hbp⟩ (how p hp)
      · rcases List.mem_append.1 hb with hb | hb
        · exact h.co p ⟨b, hb, hbp⟩ (how p hp)
        · exact h.j.excl p ⟨b, hb, hbp⟩ (Or.inr (Or.inr (how p hp)))
    · intro a ha b hb p hpa hpb
      exact h.j.excl p ⟨b, hb, hpb⟩ (Or.inl ⟨a, ha, hpa⟩)
    · intro a ha b hb p hpa hpb
      rcases List.mem_append.1 hb with hb | hb
      · exact h.cb p ⟨b, hb, hpb⟩ ⟨a, ha, hpa⟩
      · exact h.j.excl p ⟨b, hb, hpb⟩ (Or.inr (Or.inl ⟨a, ha, hpa⟩))
  have hd : Disj (s.taken ++ (r :: (s.busy ++ (ranges s.cache.root ++ ranges s.alloc.free.root)))) := by
    unfold Disj
    rw [List.pairwise_append]
    refine ⟨h.tk, hd0, ?_⟩
    intro a ha b hb p hpa hpb
    have hta : Cov s.taken p := ⟨a, ha, hpa⟩
    rcases List.mem_cons.1 hb with hb | hb
    · subst hb; exact hnt p hpb hta
    rcases List.mem_append.1 hb with hb | hb
    · exact h.bo p ⟨b, hb, hpb⟩ (h.tsub p hta)
    · rcases List.mem_append.1 hb with hb | hb
      · exact h.co p ⟨b, hb, hpb⟩ (h.tsub p hta)
      · exact h.j.excl p ⟨b, hb, hpb⟩ (Or.inr (Or.inr (h.tsub p hta)))
  have hle := lenSum_le (B := ob) hd (by
    intro p hp
    rw [Cov.append_iff, Cov.cons_iff, Cov.append_iff, Cov.append_iff] at hp
    rw [h.j.part p]
    rcases hp with hp | hp | hp | hp | hp
    · exact Or.inr (Or.inr (Or.inr (h.tsub p hp)))
    · exact Or.inr (Or.inr (Or.inr (how p hp)))
    · exact Or.inr (Or.inr (Or.inl hp))
    · exact Or.inr (Or.inl hp)
    · exact Or.inl hp)
  simp only [lenSum, lenSum_append] at hle
  have h1 := h.j.sys
  have h2 := h.j.use
  have h3 := h.j.inv.total
  have h4 := h.inv.total
  have h5 := h.size
  have h6 := h.cnt
  omega

theorem release_step {s : S} {ob : List Rng} {ow : PSet} {u : Nat} (h : K s ob ow u 0) {r : Rng} (hr : 0 < r.n)
    (how : ∀ p, r.Has p → ow p) (hnt : ∀ p, r.Has p → ¬ Cov s.taken p) :
    ∃ m, HugeAddressMap.insert s.cache r = some m ∧ m.total = s.cache.total + r.n ∧
      K { s with usage := s.usage - r.n, cache := m, size := s.size + r.n } ob (fun p => ow p ∧ ¬ r.Has p) u 0 := by
  have hd : ∀ p, r.Has p → ¬ Cov (ranges s.cache.root) p := fun p hp hc => h.co p hc (how p hp)
  obtain ⟨m, i1, i2, i3⟩ := (insert_spec h.inv hr).2 hd
  have ht := insert_total h.inv i2 hd i3
  have hu := usage_le h how hnt
  have hsz := h.size
  have hcnt := h.cnt
  refine ⟨m, i1, ht, ?_⟩
  constructor
  · exact i2
  · simp only []; omega
  · have : (fun p => Cov (ranges m.root) p ∨ Cov s.busy p ∨ (ow p ∧ ¬ r.Has p)) =
        (fun p => Cov (ranges s.cache.root) p ∨ Cov s.busy p ∨ ow p) := by
      funext p
      apply propext
      rw [i3 p]
      constructor
      · rintro ((a | a) | a | a)
        · exact Or.inl a
        · exact Or.inr (Or.inr (how p a))
        · exact Or.inr (Or.inl a)
        · exact Or.inr (Or.inr a.1)
      · rintro (a | a | a)
        · exact Or.inl (Or.inl a)
        · exact Or.inr (Or.inl a)
        · by_cases hp : r.Has p
          · exact Or.inl (Or.inr hp)
          · exact Or.inr (Or.inr ⟨a, hp⟩)
    show J s.alloc ob (fun p => Cov (ranges m.root) p ∨ Cov s.busy p ∨ (ow p ∧ ¬ r.Has p))
    rw [this]
    exact h.j
  · exact h.pos
  · exact h.disj
  · intro p hp
    rcases (i3 p).1 hp with hp | hp
    · exact h.cb p hp
    · intro hb; exact h.bo p hb (how p hp)
  · intro p hp hn
    rcases (i3 p).1 hp with hp | hp
    · exact h.co p hp hn.1
    · exact hn.2 hp
  · intro p hp hn; exact h.bo p hp hn.1
  · show s.alloc.inUse = s.size + r.n + lenSum s.busy + (s.usage - r.n) + lenSum s.taken
    omega
  · exact h.lim
  · exact h.unb
  · exact h.tk
  · exact fun p hp => ⟨h.tsub p hp, fun hx => hnt p hx hp⟩

theorem answer_ok {s : S} {ob : List Rng} {ow : PSet} {u : Nat} (h : K s ob ow u 0) {A B : List Pend} {p : Pend}
    (hi : s.inflight = A ++ p :: B) :
    ∃ al, HugeAllocator.release s.alloc p.r = some al ∧
      K { s with inflight := A ++ B, alloc := al } ob ow (u + p.r.n) (p.removed + p.r.n + p.k.rel) := by
  have hb : s.busy = A.map Pend.r ++ p.r :: B.map Pend.r := by simp [S.busy, hi]
  have hb' : ∀ al, ({ s with inflight := A ++ B, alloc := al } : S).busy = A.map Pend.r ++ B.map Pend.r := by
    intro al; simp [S.busy]
  have hpin : ∀ x, p.r.Has x → Cov s.busy x := fun x hx => ⟨p.r, by rw [hb]; simp, hx⟩
  have hsub : ∀ x, Cov (A.map Pend.r ++ B.map Pend.r) x ↔ Cov s.busy x ∧ ¬ p.r.Has x := by
    intro x
    have hdj := h.disj
    rw [hb] at hdj ⊢
    unfold Disj at hdj
    rw [List.pairwise_append, List.pairwise_cons] at hdj
    obtain ⟨_, ⟨d2, _⟩, d4⟩ := hdj
    rw [Cov.append_iff, Cov.append_iff, Cov.cons_iff]
    constructor
    · rintro (⟨a, ha, hx⟩ | ⟨a, ha, hx⟩)
      · exact ⟨Or.inl ⟨a, ha, hx⟩, fun hp => d4 a ha p.r (by simp) x hx hp⟩
      · exact ⟨Or.inr (Or.inr ⟨a, ha, hx⟩), fun hp => d2 a ha x hp hx⟩
    · rintro ⟨a | a | a, hn⟩
      · exact Or.inl a
      · exact absurd a hn
      · exact Or.inr a
  have hpos : 0 < p.r.n := h.pos p.r (by rw [hb]; simp)
  obtain ⟨al, r1, r2, _, r4, _⟩ := (HugeAllocator.release_spec h.j hpos).2 (fun x hx => Or.inr (Or.inl (hpin x hx)))
  have hunb := h.unb
  have hcnt := h.cnt
  rw [hi, pendSum_append, pendSum] at hunb
  rw [hb, lenSum_append, lenSum] at hcnt
  refine ⟨al, r1, ?_⟩
  constructor
  · exact h.inv
  · exact h.size
  · rw [hb']
    have : (fun x => Cov (ranges s.cache.root) x ∨ Cov (A.map Pend.r ++ B.map Pend.r) x ∨ ow x) =
        (fun x => (Cov (ranges s.cache.root) x ∨ Cov s.busy x ∨ ow x) ∧ ¬ p.r.Has x) := by
      funext x
      apply propext
      rw [hsub x]
      constructor
      · rintro (a | a | a)
        · exact ⟨Or.inl a, fun hx => h.cb x a (hpin x hx)⟩
        · exact ⟨Or.inr (Or.inl a.1), a.2⟩
        · exact ⟨Or.inr (Or.inr a), fun hx => h.bo x (hpin x hx) a⟩
      · rintro ⟨a | a | a, hn⟩
        · exact Or.inl a
        · exact Or.inr (Or.inl ⟨a, hn⟩)
        · exact Or.inr (Or.inr a)
    rw [this]
    exact r2
  · intro r hr
    rw [hb'] at hr
    refine h.pos r ?_
    rw [hb]
    rcases List.mem_append.1 hr with hr | hr
    · exact List.mem_append_left _ hr
    · exact List.mem_append_right _ (List.mem_cons_of_mem _ hr)
  · rw [hb']
    have hdj := h.disj
    rw [hb] at hdj
    exact List.Pairwise.sublist (List.Sublist.append_left (List.sublist_cons_self _ _) _) hdj
  · intro x hx
    rw [hb', hsub]
    exact fun hh => h.cb x hx hh.1
  · exact h.co
  · intro x
    rw [hb', hsub]
    exact fun hh => h.bo x hh.1
  · rw [hb', lenSum_append]
    simp only []
    omega
  · exact h.lim
  · simp only [pendSum_append]; omega
  · exact h.tk
  · exact h.tsub

theorem answer_fail {s : S} {ob : List Rng} {ow : PSet} {u : Nat} (h : K s ob ow u 0) {A B : List Pend} {p : Pend}
    (hi : s.inflight = A ++ p :: B) :
    ∃ m, HugeAddressMap.insert s.cache p.r = some m ∧ 
      K { s with inflight := A ++ B, size := s.size + p.r.n, cache := m } ob ow u (p.removed + p.k.rel) := by
  have hb : s.busy = A.map Pend.r ++ p.r :: B.map Pend.r := by simp [S.busy, hi]
  have hb' : ∀ m z, ({ s with inflight := A ++ B, size := z, cache := m } : S).busy = A.map Pend.r ++ B.map Pend.r := by
    intro m z; simp [S.busy]
  have hpin : ∀ x, p.r.Has x → Cov s.busy x := fun x hx => ⟨p.r, by rw [hb]; simp, hx⟩
  have hsub : ∀ x, Cov (A.map Pend.r ++ B.map Pend.r) x ↔ Cov s.busy x ∧ ¬ p.r.Has x := by
    intro x
    have hdj := h.disj
    rw [hb] at hdj ⊢
    unfold Disj at hdj
    rw [List.pairwise_append, List.pairwise_cons] at hdj
    obtain ⟨_, ⟨d2, _⟩, d4⟩ := hdj
    rw [Cov.append_iff, Cov.append_iff, Cov.cons_iff]
    constructor
    · rintro (⟨a, ha, hx⟩ | ⟨a, ha, hx⟩)
      · exact ⟨Or.inl ⟨a, ha, hx⟩, fun hp => d4 a ha p.r (by simp) x hx hp⟩
      · exact ⟨Or.inr (Or.inr ⟨a, ha, hx⟩), fun hp => d2 a ha x hp hx⟩
    · rintro ⟨a | a | a, hn⟩
      · exact Or.inl a
      · exact absurd a hn
      · exact Or.inr a
  have hpos : 0 < p.r.n := h.pos p.r (by rw [hb]; simp)
  have hd : ∀ x, p.r.Has x → ¬ Cov (ranges s.cache.root) x := fun x hx hc => h.cb x hc (hpin x hx)
  obtain ⟨m, i1, i2, i3⟩ := (insert_spec h.inv hpos).2 hd
  have ht := insert_total h.inv i2 hd i3
  have hunb := h.unb
  have hcnt := h.cnt
  have hsz := h.size
  rw [hi, pendSum_append, pendSum] at hunb
  rw [hb, lenSum_append, lenSum] at hcnt
  refine ⟨m, i1, ?_⟩
  constructor
  · exact i2
  · simp only []; omega
  · rw [hb']
    have : (fun x => Cov (ranges m.root) x ∨ Cov (A.map Pend.r ++ B.map Pend.r) x ∨ ow x) =
        (fun x => Cov (ranges s.cache.root) x ∨ Cov s.busy x ∨ ow x) := by
      funext x
      apply propext
      rw [hsub x, i3 x]
      constructor
      · rintro ((a | a) | a | a)
        · exact Or.inl a
        · exact Or.inr (Or.inl (hpin x a))
        · exact Or.inr (Or.inl a.1)
        · exact Or.inr (Or.inr a)
      · rintro (a | a | a)
        · exact Or.inl (Or.inl a)
        · by_cases hx : p.r.Has x
          · exact Or.inl (Or.inr hx)
          · exact Or.inr (Or.inl ⟨a, hx⟩)
        · exact Or.inr (Or.inr a)
    rw [this]
    exact h.j
  · intro r hr
    rw [hb'] at hr
    refine h.pos r ?_
    rw [hb]
    rcases List.mem_append.1 hr with hr | hr
    · exact List.mem_append_left _ hr
    · exact List.mem_append_right _ (List.mem_cons_of_mem _ hr)
  · rw [hb']
    have hdj := h.disj
    rw [hb] at hdj
    exact List.Pairwise.sublist (List.Sublist.append_left (List.sublist_cons_self _ _) _) hdj
  · intro x hx
    rw [hb', hsub]
    rintro ⟨a, b⟩
    rcases (i3 x).1 hx with hx | hx
    · exact h.cb x hx a
    · exact b hx
  · intro x hx
    rcases (i3 x).1 hx with hx | hx
    · exact h.co x hx
    · exact h.bo x (hpin x hx)
  · intro x
    rw [hb', hsub]
    exact fun hh => h.bo x hh.1
  · rw [hb', lenSum_append]
    simp only []
    omega
  · exact h.lim
  · simp only [pendSum_append]; omega
  · exact h.tk
  · exact h.tsub

theorem split_at {α} {l : List α} {i : Nat} {p : α} (h : l[i]? = some p) :
    ∃ A B, l = A ++ p :: B ∧ l.eraseIdx i = A ++ B := by
  obtain ⟨hi, rfl⟩ := List.getElem?_eq_some_iff.1 h
  refine ⟨l.take i, l.drop (i + 1), ?_, List.eraseIdx_eq_take_drop_succ _ _⟩
  rw [List.getElem_cons_drop, List.take_append_drop]

theorem answer_spec {s : S} {ob : List Rng} {ow : PSet} {u : Nat} (h : K s ob ow u 0) {i : Nat} (ok : Bool)
    (hi : i < s.inflight.length) :
    ∃ s' o, answer s i ok = some (s', o) ∧ K s' ob ow (unbacked' s u (.answer i ok)) 0 ∧ o.quiet := by
  have hp : s.inflight[i]? = some s.inflight[i] := List.getElem?_eq_getElem hi
  obtain ⟨A, B, e1, e2⟩ := split_at hp
  generalize s.inflight[i] = p at *
  have hbn : s.busy[i]? = some p.r := by simp [S.busy, hp]
  unfold answer
  rw [hp]
  simp only [e2]
  cases ok with
  | true =>
    obtain ⟨al, r1, r2⟩ := answer_ok h e1
    rw [if_pos rfl, r1]
    simp only [unbacked', hbn, Option.map_some, Option.getD_some]
    exact shrink_spec r2 rfl
  | false =>
    obtain ⟨m, r1, r2⟩ := answer_fail h e1
    rw [if_neg (by simp), r1]
    exact resume_spec r2 rfl

theorem get_step {s : S} {ob : List Rng} {ow : PSet} {u : Nat} (h : K s ob ow u 0) {n : Nat} (hn : 0 < n)
    (fr : Bool) {sys : Option Rng} (hs : SysOK ob n sys) (a b : Nat) :
    ∃ s' res fr' asked, get s n fr sys a b = some (s', .got res fr' asked) ∧
      K s' (if asked then sys.toList ++ ob else ob) (fun p => ow p ∨ ∃ r, res = some r ∧ r.Has p) u 0 ∧
      s'.inflight = s.inflight ∧
      (∀ r, res = some r → r.n = n ∧ (∀ p, r.Has p → ¬ ow p ∧ ¬ Cov s.busy p) ∧
        (fr' = false ↔ ∀ p, r.Has p → Cov (ranges s.cache.root) p)) ∧
      (asked = true → ∀ q ∈ ranges s.cache.root, q.n < n) ∧
      (res = none → (∀ q ∈ ranges s.cache.root, q.n < n) ∧ s' = s) ∧
      (∀ r, res = some r → (fr' = false ↔ ∃ q ∈ ranges s.cache.root, n ≤ q.n)) := by
  obtain ⟨f1, f2⟩ := find_none hn h.inv
  unfold get
  cases hf : find n s.cache.root none with
  | some q =>
    obtain ⟨q1, q2⟩ := f2 q hf
    obtain ⟨m', t1, t2, t3, t4, t5⟩ := takeMap_spec h.inv hn q2 q1
    simp only [t1]
    have hsz := h.size
    have hcnt := h.cnt
    refine ⟨_, _, _, _, rfl, ?_, rfl, ?_, by simp, by simp, ?_⟩
    · simp only [Bool.false_eq_true, if_false]
      have how : (fun p => ow p ∨ ∃ r, some (⟨q.s, n⟩ : Rng) = some r ∧ r.Has p) =
          (fun p => ow p ∨ (⟨q.s, n⟩ : Rng).Has p) := by funext p; simp
      rw [how]
      constructor
      · exact t2
      · simp only []; omega
      · have : (fun p => Cov (ranges m'.root) p ∨ Cov s.busy p ∨ (ow p ∨ (⟨q.s, n⟩ : Rng).Has p)) =
            (fun p => Cov (ranges s.cache.root) p ∨ Cov s.busy p ∨ ow p) := by
          funext p
          apply propext
          rw [t5 p]
          constructor
          · rintro (x | x | x | x)
            · exact Or.inl x.1
            · exact Or.inr (Or.inl x)
            · exact Or.inr (Or.inr x)
            · exact Or.inl (t4 p x)
          · rintro (x | x | x)
            · by_cases hp : (⟨q.s, n⟩ : Rng).Has p
              · exact Or.inr (Or.inr (Or.inr hp))
              · exact Or.inl ⟨x, hp⟩
            · exact Or.inr (Or.inl x)
            · exact Or.inr (Or.inr (Or.inl x))
        show J s.alloc ob (fun p => Cov (ranges m'.root) p ∨ Cov s.busy p ∨ (ow p ∨ (⟨q.s, n⟩ : Rng).Has p))
        rw [this]
        exact h.j
      · exact h.pos
      · exact h.disj
      · intro p hp; exact h.cb p ((t5 p).1 hp).1
      · intro p hp
        have := (t5 p).1 hp
        rintro (x | x)
        · exact h.co p this.1 x
        · exact this.2 x
      · intro p hp
        rintro (x | x)
        · exact h.bo p hp x
        · exact h.cb p (t4 p x) hp
      · show s.alloc.inUse = s.size - n + lenSum s.busy + (s.usage + n) + lenSum s.taken
        omega
      · exact h.lim
      · exact h.unb
      · exact h.tk
      · exact fun p hp => Or.inl (h.tsub p hp)
    · intro r e
      simp only [Option.some.injEq] at e
      subst e
      exact ⟨rfl, fun p hp => ⟨h.co p (t4 p hp), h.cb p (t4 p hp)⟩, fun _ => t4, fun _ => rfl⟩
    · intro r _
      exact ⟨fun _ => ⟨q, q2, q1⟩, fun _ => rfl⟩
  | none =>
    have hall := f1.1 hf
    obtain ⟨al, res, asked, g1, g2, g3, g4, g5⟩ := HugeAllocator.get_spec h.j hn hs
    simp only [g1]
    cases res with
    | none =>
      obtain ⟨g6, _, _⟩ := g5 rfl
      subst g6
      refine ⟨_, _, _, _, rfl, ?_, rfl, by simp, fun _ => hall, fun _ => ⟨hall, rfl⟩, by simp⟩
      have how : (fun p => ow p ∨ ∃ r, (none : Option Rng) = some r ∧ r.Has p) = ow := by funext p; simp
      rw [how]
      refine ⟨h.inv, h.size, ?_, h.pos, h.disj, h.cb, h.co, h.bo, h.cnt, h.lim, h.unb, h.tk, h.tsub⟩
      have : (fun p => (Cov (ranges s.cache.root) p ∨ Cov s.busy p ∨ ow p) ∨ ∃ r, (none : Option Rng) = some r ∧ r.Has p)
          = (fun p => Cov (ranges s.cache.root) p ∨ Cov s.busy p ∨ ow p) := by funext p; simp
      rw [this] at g2
      exact g2
    | some r =>
      obtain ⟨k1, huse, k2⟩ := g4 r rfl
      have hnot : ∀ p, r.Has p → ¬ (Cov (ranges s.cache.root) p ∨ Cov s.busy p ∨ ow p) := fun p hp => (k2 p hp).1
      have hcnt := h.cnt
      simp only [k1]
      have hK : K { s with alloc := al, usage := s.usage + n } (if asked then sys.toList ++ ob else ob)
          (fun p => ow p ∨ r.Has p) u 0 := by
        refine ⟨h.inv, h.size, ?_, h.pos, h.disj, h.cb, ?_, ?_, ?_, h.lim, h.unb, h.tk,
          fun p hp => Or.inl (h.tsub p hp)⟩
        · have : (fun p => (Cov (ranges s.cache.root) p ∨ Cov s.busy p ∨ ow p) ∨ ∃ r', some r = some r' ∧ r'.Has p)
              = (fun p => Cov (ranges s.cache.root) p ∨ Cov s.busy p ∨ (ow p ∨ r.Has p)) := by
            funext p
            simp [or_assoc]
          rw [this] at g2
          exact g2
        · intro p hp
          rintro (x | x)
          · exact h.co p hp x
          · exact hnot p x (Or.inl hp)
        · intro p hp
          rintro (x | x)
          · exact h.bo p hp x
          · exact hnot p x (Or.inr (Or.inl hp))
        · show al.inUse = s.size + lenSum s.busy + (s.usage + n) + lenSum s.taken
          omega
      have hgrow : K (maybeGrowLimit { s with alloc := al, usage := s.usage + n } a b)
          (if asked then sys.toList ++ ob else ob) (fun p => ow p ∨ r.Has p) u 0 := by
        unfold maybeGrowLimit
        simp only []
        split
        · refine hK.limit ?_
          have := h.lim
          omega
        · exact hK
      refine ⟨_, _, _, _, rfl, ?_, ?_, ?_, fun _ => hall, by simp, ?_⟩
      · have how : (fun p => ow p ∨ ∃ r', some r = some r' ∧ r'.Has p) = (fun p => ow p ∨ r.Has p) := by
          funext p; simp
        rw [how]
        exact hgrow
      · unfold maybeGrowLimit
        simp only []
        split <;> rfl
      · intro r' e
        simp only [Option.some.injEq] at e
        subst e
        refine ⟨k1, fun p hp => ⟨fun x => hnot p hp (Or.inr (Or.inr x)), fun x => hnot p hp (Or.inr (Or.inl x))⟩, ?_⟩
        constructor
        · intro x; simp at x
        · intro x
          have hh : r.Has r.s := ⟨Nat.le_refl _, by omega⟩
          exact absurd (Or.inl (x r.s hh)) (hnot r.s hh)
      · intro r' _
        constructor
        · intro x; simp at x
        · rintro ⟨q, hq, hqn⟩
          have := hall q hq
          omega

theorem take_step {s : S} {ob : List Rng} {ow : PSet} {u : Nat} (h : K s ob ow u 0) {n : Nat} (hn : 0 < n)
    {sys : Option Rng} (hs : SysOK ob n sys) :
    ∃ s' res asked, takeRange s n sys = some (s', .got res true asked) ∧
      K s' (if asked then sys.toList ++ ob else ob) (fun p => ow p ∨ ∃ r, res = some r ∧ r.Has p) u 0 ∧
      s'.inflight = s.inflight ∧ s'.taken = res.toList ++ s.taken ∧
      (∀ r, res = some r → r.n = n ∧ ∀ p, r.Has p → ¬ ow p ∧ ¬ Cov s.busy p) ∧ (res = none → s' = s) := by
  obtain ⟨al, res, asked, g1, g2, g3, g4, g5⟩ := HugeAllocator.get_spec h.j hn hs
  unfold takeRange
  simp only [g1]
  cases res with
  | none =>
    obtain ⟨g6, _, _⟩ := g5 rfl
    subst g6
    refine ⟨_, _, _, rfl, ?_, rfl, rfl, by simp, fun _ => rfl⟩
    have how : (fun p => ow p ∨ ∃ r, (none : Option Rng) = some r ∧ r.Has p) = ow := by funext p; simp
    rw [how]
    refine ⟨h.inv, h.size, ?_, h.pos, h.disj, h.cb, h.co, h.bo, h.cnt, h.lim, h.unb, h.tk, h.tsub⟩
    have : (fun p => (Cov (ranges s.cache.root) p ∨ Cov s.busy p ∨ ow p) ∨ ∃ r, (none : Option Rng) = some r ∧ r.Has p)
        = (fun p => Cov (ranges s.cache.root) p ∨ Cov s.busy p ∨ ow p) := by funext p; simp
    rw [this] at g2
    exact g2
  | some r =>
    obtain ⟨k1, huse, k2⟩ := g4 r rfl
    have hnot : ∀ p, r.Has p → ¬ (Cov (ranges s.cache.root) p ∨ Cov s.busy p ∨ ow p) := fun p hp => (k2 p hp).1
    have hcnt := h.cnt
    refine ⟨_, _, _, rfl, ?_, rfl, rfl, ?_, by simp⟩
    · have how : (fun p => ow p ∨ ∃ r', some r = some r' ∧ r'.Has p) = (fun p => ow p ∨ r.Has p) := by
        funext p; simp
      rw [how]
      refine ⟨h.inv, h.size, ?_, h.pos, h.disj, h.cb, ?_, ?_, ?_, h.lim, h.unb, ?_, ?_⟩
      · have : (fun p => (Cov (ranges s.cache.root) p ∨ Cov s.busy p ∨ ow p) ∨ ∃ r', some r = some r' ∧ r'.Has p)
            = (fun p => Cov (ranges s.cache.root) p ∨ Cov s.busy p ∨ (ow p ∨ r.Has p)) := by
          funext p
          simp [or_assoc]
        rw [this] at g2
        exact g2
      · intro p hp
        rintro (x | x)
        · exact h.co p hp x
        · exact hnot p x (Or.inl hp)
      · intro p hp
        rintro (x | x)
        · exact h.bo p hp x
        · exact hnot p x (Or.inr (Or.inl hp))
      · show al.inUse = s.size + lenSum s.busy + s.usage + (r.n + lenSum s.taken)
        omega
      · show Disj (r :: s.taken)
        exact List.pairwise_cons.2 ⟨fun b hb p hp hbp => hnot p hp (Or.inr (Or.inr (h.tsub p ⟨b, hb, hbp⟩))), h.tk⟩
      · intro p hp
        rcases (Cov.cons_iff (a := r)).1 hp with hp | hp
        · exact Or.inr hp
        · exact Or.inl (h.tsub p hp)
    · intro r' e
      simp only [Option.some.injEq] at e
      subst e
      exact ⟨k1, fun p hp => ⟨fun x => hnot p hp (Or.inr (Or.inr x)), fun x => hnot p hp (Or.inr (Or.inl x))⟩⟩

theorem step_spec {s : S} {ob : List Rng} {ow : PSet} {u : Nat} (h : K s ob ow u 0) (e : Ev) (he : e.Pre ob ow s) :
    ∃ s' o, step s e = some (s', o) ∧ K s' (obtained' ob e o) (owned' ow e o) (unbacked' s u e) 0 := by
  cases e with
  | get n fr sys a b =>
    obtain ⟨s', res, fr', asked, e1, e2, _⟩ := get_step h he.1 fr he.2 a b
    refine ⟨s', _, e1, ?_⟩
    have hob : obtained' ob (.get n fr sys a b) (.got res fr' asked) = if asked then sys.toList ++ ob else ob := by
      cases asked <;> rfl
    have how : owned' ow (.get n fr sys a b) (.got res fr' asked) = (fun p => ow p ∨ ∃ r, res = some r ∧ r.Has p) := by
      cases res with
      | none => funext p; simp [owned']
      | some r => funext p; simp [owned']
    rw [hob, how]
    exact e2
  | release r el ms =>
    obtain ⟨m, i1, i2, i3⟩ := release_step h he.1 he.2.1 he.2.2
    have : ∃ s' o, step s (.release r el ms) = some (s', o) ∧ K s' ob (fun p => ow p ∧ ¬ r.Has p) u 0 ∧ o.quiet := by
      simp only [step, release, i1]
      cases el with
      | true => rw [if_pos rfl]; exact maybeShrinkLimit_spec i3 rfl
      | false => rw [if_neg (by simp)]; exact resume_spec i3 rfl
    obtain ⟨s', o, e1, e2, _⟩ := this
    exact ⟨s', o, e1, e2⟩
  | releaseUnbacked r =>
    have how := he.2.1
    have hnt := he.2.2
    obtain ⟨al, r1, r2, _, r4, _⟩ := (HugeAllocator.release_spec h.j he.1).2 (fun p hp => Or.inr (Or.inr (how p hp)))
    have hu := usage_le h how hnt
    have hcnt := h.cnt
    simp only [step, releaseUnbacked, r1]
    refine ⟨_, _, rfl, ?_⟩
    refine ⟨h.inv, h.size, ?_, h.pos, h.disj, h.cb, fun p hp hn => h.co p hp hn.1, fun p hp hn => h.bo p hp hn.1, ?_,
      h.lim, h.unb, h.tk, fun p hp => ⟨h.tsub p hp, fun hx => hnt p hx hp⟩⟩
    · have : (fun p => (Cov (ranges s.cache.root) p ∨ Cov s.busy p ∨ ow p) ∧ ¬ r.Has p) =
          (fun p => Cov (ranges s.cache.root) p ∨ Cov s.busy p ∨ (ow p ∧ ¬ r.Has p)) := by
        funext p
        apply propext
        constructor
        · rintro ⟨a | a | a, hn⟩
          · exact Or.inl a
          · exact Or.inr (Or.inl a)
          · exact Or.inr (Or.inr ⟨a, hn⟩)
        · rintro (a | a | a)
          · exact ⟨Or.inl a, fun hp => h.co p a (how p hp)⟩
          · exact ⟨Or.inr (Or.inl a), fun hp => h.bo p a (how p hp)⟩
          · exact ⟨Or.inr (Or.inr a.1), a.2⟩
      rw [this] at r2
      exact r2
    · show al.inUse = s.size + lenSum s.busy + (s.usage - r.n) + lenSum s.taken
      omega
  | releaseCached n ms =>
    obtain ⟨s', o, e1, e2, hq⟩ := maybeShrinkLimit_spec h (minSize := ms) (k := .rcpA n) rfl
    exact ⟨s', o, e1, e2⟩
  | answer i ok =>
    obtain ⟨s', o, e1, e2, hq⟩ := answer_spec h ok he
    exact ⟨s', o, e1, e2⟩
  | take n sys =>
    obtain ⟨s', res, asked, e1, e2, _⟩ := take_step h he.1 he.2
    refine ⟨s', _, e1, ?_⟩
    have hob : obtained' ob (.take n sys) (.got res true asked) = if asked then sys.toList ++ ob else ob := by
      cases asked <;> rfl
    have how : owned' ow (.take n sys) (.got res true asked) = (fun p => ow p ∨ ∃ r, res = some r ∧ r.Has p) := by
      cases res with
      | none => funext p; simp [owned']
      | some r => funext p; simp [owned']
    rw [hob, how]
    exact e2

theorem Reach.K {s : S} {ob : List Rng} {ow : PSet} {u : Nat} (h : Reach s ob ow u) : K s ob ow u 0 := by
  induction h with
  | init => exact K.init
  | step e _ he hs ih =>
    obtain ⟨s', o, e1, e2⟩ := step_spec ih e he
    rw [hs] at e1
    simp only [Option.some.injEq, Prod.mk.injEq] at e1
    obtain ⟨rfl, rfl⟩ := e1
    exact e2

end Verif.HugeCache
