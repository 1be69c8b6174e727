import Verif.HugeAllocator.Spec
import Verif.HugeAddressMap.Lemmas2
import Verif.Util
namespace Verif.HugeAllocator
open Verif.HugeAddressMap

/-! ### Counting hugepages -/

/-- All hugepages of the ranges, one by one. -/
def pagesOf (L : List Rng) : List Nat := L.flatMap fun r => List.range' r.s r.n

theorem pagesOf_cons (a : Rng) (L : List Rng) : pagesOf (a :: L) = List.range' a.s a.n ++ pagesOf L := by
  simp [pagesOf]

theorem mem_pagesOf (L : List Rng) (p : Nat) : p ∈ pagesOf L ↔ Cov L p := by
  unfold pagesOf Cov Rng.Has
  simp [List.mem_flatMap, List.mem_range'_1]

theorem length_pagesOf : ∀ L, (pagesOf L).length = lenSum L
  | [] => rfl
  | a :: L => by rw [pagesOf_cons, List.length_append, List.length_range', length_pagesOf L]; rfl

/-- No hugepage in two ranges. -/
def Disj (L : List Rng) : Prop := L.Pairwise fun a b => ∀ p, a.Has p → ¬ b.Has p

theorem nodup_pagesOf {L : List Rng} (h : Disj L) : (pagesOf L).Nodup := by
  induction L with
  | nil => simp [pagesOf]
  | cons a L ih =>
    obtain ⟨h1, h2⟩ := List.pairwise_cons.1 h
    rw [pagesOf_cons, List.nodup_append]
    refine ⟨List.nodup_range', ih h2, ?_⟩
    rintro x hx y hy rfl
    obtain ⟨b, hb, hbx⟩ := (mem_pagesOf L x).1 hy
    exact h1 b hb x (by simpa [Rng.Has, List.mem_range'_1] using hx) hbx

theorem Sep.disj {L : List Rng} (h : Sep L) : Disj L :=
  h.2.imp (fun hab p h1 h2 => by unfold Rng.Has at h1 h2; omega)

theorem lenSum_le {A B : List Rng} (hA : Disj A) (h : ∀ p, Cov A p → Cov B p) : lenSum A ≤ lenSum B := by
  rw [← length_pagesOf, ← length_pagesOf]
  exact nodup_subset_length (nodup_pagesOf hA)
    (fun p hp => (mem_pagesOf B p).2 (h p ((mem_pagesOf A p).1 hp)))

/-! ### find -/

theorem find_spec {n : Nat} (hn : 0 < n) : ∀ t best, LOK t →
    (∀ b, best = some b → n ≤ b.n) →
    (t.longest < n → find n t best = best) ∧
    (n ≤ t.longest ∨ best.isSome → ∃ q, find n t best = some q ∧ n ≤ q.n ∧ (q ∈ ranges t ∨ best = some q)) := by
  intro t
  induction t with
  | leaf =>
    intro best _ hb
    refine ⟨fun _ => rfl, ?_⟩
    rintro (h | h)
    · simp only [Tree.longest] at h; omega
    · obtain ⟨b, rfl⟩ := Option.isSome_iff_exists.1 h
      exact ⟨b, rfl, hb b rfl, Or.inr rfl⟩
  | node l x r ihl ihr =>
    rintro best ⟨l1, l2, l3⟩ hb
    rw [longest_node, find]
    by_cases hx : x.longest ≥ n
    · rw [if_pos hx]
      refine ⟨fun h => by omega, fun _ => ?_⟩
      generalize hbest : better n x.r best = best'
      have hb' : (∀ b, best' = some b → n ≤ b.n ∧ (b = x.r ∨ best = some b)) ∧
          (n ≤ x.r.n ∨ best.isSome → best'.isSome) := by
        subst hbest
        unfold better
        by_cases hxn : x.r.n ≥ n
        · rw [if_pos hxn]
          cases best with
          | none =>
            refine ⟨?_, fun _ => rfl⟩
            rintro b e; simp only [Option.some.injEq] at e; subst e; exact ⟨hxn, Or.inl rfl⟩
          | some b0 =>
            simp only []
            by_cases hlt : b0.n > x.r.n
            · rw [if_pos hlt]
              refine ⟨?_, fun _ => rfl⟩
              rintro b e; simp only [Option.some.injEq] at e; subst e; exact ⟨hxn, Or.inl rfl⟩
            · rw [if_neg hlt]
              refine ⟨?_, fun _ => rfl⟩
              rintro b e
              exact ⟨hb b e, Or.inr e⟩
        · rw [if_neg hxn]
          refine ⟨fun b e => ⟨hb b e, Or.inr e⟩, ?_⟩
          rintro (h | h)
          · omega
          · exact h
      have hlift : ∀ (t' : Tree), (∀ q, q ∈ ranges t' → q ∈ ranges (.node l x r)) →
          (∃ q, find n t' best' = some q ∧ n ≤ q.n ∧ (q ∈ ranges t' ∨ best' = some q)) →
          ∃ q, find n t' best' = some q ∧ n ≤ q.n ∧ (q ∈ ranges (.node l x r) ∨ best = some q) := by
        rintro t' hsub ⟨q, e, h1, h2⟩
        refine ⟨q, e, h1, ?_⟩
        rcases h2 with h2 | h2
        · exact Or.inl (hsub q h2)
        · rcases (hb'.1 q h2).2 with h3 | h3
          · left; rw [h3]; simp [ranges]
          · exact Or.inr h3
      have hL := ihl best' l1 (fun b e => (hb'.1 b e).1)
      have hR := ihr best' l2 (fun b e => (hb'.1 b e).1)
      have subL : ∀ q, q ∈ ranges l → q ∈ ranges (.node l x r) := fun q hq => by simp [ranges, hq]
      have subR : ∀ q, q ∈ ranges r → q ∈ ranges (.node l x r) := fun q hq => by simp [ranges, hq]
      have leafL : ∀ t : Tree, isLeaf t = true → t.longest = 0 := by
        intro t ht; cases t with
        | leaf => rfl
        | node => simp [isLeaf] at ht
      by_cases c1 : (isLeaf l || decide (l.longest < n)) = true
      · rw [if_pos c1]
        have hl : l.longest < n := by
          rw [Bool.or_eq_true, decide_eq_true_eq] at c1
          rcases c1 with c | c
          · rw [leafL l c]; exact hn
          · exact c
        refine hlift r subR (hR.2 ?_)
        by_cases hxn : n ≤ x.r.n
        · exact Or.inr (hb'.2 (Or.inl hxn))
        · left; clear hL hR hlift ihl ihr; omega
      · rw [if_neg c1]
        have hl : n ≤ l.longest := by
          rw [Bool.or_eq_true, decide_eq_true_eq] at c1; omega
        by_cases c2 : (isLeaf r || decide (r.longest < n)) = true
        · rw [if_pos c2]; exact hlift l subL (hL.2 (Or.inl hl))
        · rw [if_neg c2]
          have hr : n ≤ r.longest := by
            rw [Bool.or_eq_true, decide_eq_true_eq] at c2; omega
          by_cases c3 : goLeft l r = true
          · rw [if_pos c3]; exact hlift l subL (hL.2 (Or.inl hl))
          · rw [if_neg c3]; exact hlift r subR (hR.2 (Or.inl hr))
    · rw [if_neg hx]
      refine ⟨fun _ => rfl, ?_⟩
      rintro (h | h)
      · omega
      · obtain ⟨b, rfl⟩ := Option.isSome_iff_exists.1 h
        exact ⟨b, rfl, hb b rfl, Or.inr rfl⟩

theorem le_longest : ∀ t, LOK t → ∀ r ∈ ranges t, r.n ≤ t.longest := by
  intro t
  induction t with
  | leaf => intro _ r hr; simp [ranges] at hr
  | node l x r ihl ihr =>
    rintro ⟨l1, l2, l3⟩ q hq
    rw [longest_node]
    simp only [ranges] at hq
    rcases List.mem_append.1 hq with hq | hq
    · have := ihl l1 q hq; omega
    · rcases List.mem_cons.1 hq with rfl | hq
      · omega
      · have := ihr l2 q hq; omega

/-- `Find` succeeds exactly when some free range is long enough. -/
theorem find_none {n : Nat} (hn : 0 < n) {m : HMap} (h : Inv m) :
    (find n m.root none = none ↔ ∀ r ∈ ranges m.root, r.n < n) ∧
    ∀ q, find n m.root none = some q → n ≤ q.n ∧ q ∈ ranges m.root := by
  have hs := find_spec hn m.root none h.lok (by simp)
  have hsome : ∀ q, find n m.root none = some q → n ≤ q.n ∧ q ∈ ranges m.root := by
    intro q e
    by_cases hl : m.root.longest < n
    · rw [hs.1 hl] at e; simp at e
    · obtain ⟨q', e', a, b⟩ := hs.2 (Or.inl (by omega))
      rw [e'] at e
      simp only [Option.some.injEq] at e
      subst e
      rcases b with b | b
      · exact ⟨a, b⟩
      · simp at b
  refine ⟨⟨fun e r hr => ?_, fun hall => ?_⟩, hsome⟩
  · apply Classical.byContradiction
    intro hc
    have := le_longest m.root h.lok r hr
    obtain ⟨q', e', _⟩ := hs.2 (Or.inl (by omega))
    rw [e'] at e; simp at e
  · cases hf : find n m.root none with
    | none => rfl
    | some q =>
      obtain ⟨a, b⟩ := hsome q hf
      have := hall q b; omega

/-! ### Ownership -/

structure J (a : HA) (ob : List Rng) (ow : PSet) : Prop where
  inv : Inv a.free
  sys : a.fromSystem = lenSum ob
  use : a.fromSystem = a.free.total + a.inUse
  disj : Disj ob
  part : ∀ p, Cov ob p ↔ Cov (ranges a.free.root) p ∨ ow p
  excl : ∀ p, Cov (ranges a.free.root) p → ¬ ow p

theorem J.init : J HA.init [] (fun _ => False) :=
  ⟨Inv.init, rfl, rfl, List.Pairwise.nil, fun p => by simp [HA.init, HMap.init, ranges, Cov],
    fun _ _ h => h⟩

theorem release_spec {a : HA} {ob : List Rng} {ow : PSet} (h : J a ob ow) {r : Rng} (hr : 0 < r.n) :
    ((∃ p, r.Has p ∧ Cov (ranges a.free.root) p) → release a r = none) ∧
    ((∀ p, r.Has p → ow p) → ∃ a', release a r = some a' ∧ J a' ob (fun p => ow p ∧ ¬ r.Has p) ∧
      (∀ p, Cov (ranges a'.free.root) p ↔ Cov (ranges a.free.root) p ∨ r.Has p) ∧
      a'.inUse + r.n = a.inUse ∧ a'.fromSystem = a.fromSystem) := by
  obtain ⟨h1, h2⟩ := insert_spec h.inv hr
  constructor
  · intro hp
    unfold release
    rw [h1 hp]
  · intro how
    obtain ⟨f, e, i, c⟩ := h2 (fun p hp hc => h.excl p hc (how p hp))
    have hle : f.total ≤ a.fromSystem := by
      rw [i.total, h.sys]
      refine lenSum_le (Sep.disj i.sep) (fun p hp => ?_)
      rcases (c p).1 hp with hp | hp
      · exact (h.part p).2 (Or.inl hp)
      · exact (h.part p).2 (Or.inr (how p hp))
    have htot : f.total = a.free.total + r.n := by
      -- both are counts of hugepages: the new set is the old one plus `r`
      have hd : Disj (r :: ranges a.free.root) := by
        refine List.pairwise_cons.2 ⟨fun b hb p hp hbp => ?_, Sep.disj h.inv.sep⟩
        exact h.excl p ⟨b, hb, hbp⟩ (how p hp)
      have g1 : lenSum (r :: ranges a.free.root) ≤ lenSum (ranges f.root) :=
        lenSum_le hd (fun p hp => (c p).2 (by
          rcases Cov.cons_iff.1 hp with hp | hp
          · exact Or.inr hp
          · exact Or.inl hp))
      have g2 : lenSum (ranges f.root) ≤ lenSum (r :: ranges a.free.root) :=
        lenSum_le (Sep.disj i.sep) (fun p hp => Cov.cons_iff.2 (by
          rcases (c p).1 hp with hp | hp
          · exact Or.inr hp
          · exact Or.inl hp))
      rw [i.total, h.inv.total]
      simp only [lenSum] at g1 g2
      omega
    have huse := h.use
    unfold release
    rw [e]
    refine ⟨_, rfl, ?_, c, by simp only []; omega, rfl⟩
    constructor
    · exact i
    · exact h.sys
    · simp only []; omega
    · exact h.disj
    · intro p
      rw [h.part p, c p]
      constructor
      · rintro (hp | hp)
        · exact Or.inl (Or.inl hp)
        · by_cases hrp : r.Has p
          · exact Or.inl (Or.inr hrp)
          · exact Or.inr ⟨hp, hrp⟩
      · rintro ((hp | hp) | hp)
        · exact Or.inl hp
        · exact Or.inr (how p hp)
        · exact Or.inr hp.1
    · intro p hp hn
      rcases (c p).1 hp with hp | hp
      · exact h.excl p hp hn.1
      · exact hn.2 hp

theorem take_spec {a : HA} {ob : List Rng} {ow : PSet} (h : J a ob ow) {q : Rng} {n : Nat} (hn : 0 < n)
    (hq : q ∈ ranges a.free.root) (hle : n ≤ q.n) :
    ∃ a', take a q n = some (a', ⟨q.s, n⟩) ∧ J a' ob (fun p => ow p ∨ (⟨q.s, n⟩ : Rng).Has p) ∧
      a'.inUse = a.inUse + n ∧ a'.fromSystem = a.fromSystem ∧
      ∀ p, (⟨q.s, n⟩ : Rng).Has p → Cov (ranges a.free.root) p := by
  obtain ⟨A, B, e⟩ := List.append_of_mem hq
  obtain ⟨f, e1, e2, e3, _⟩ := remove_spec h.inv e
  have hsep := h.inv.sep
  rw [e] at hsep
  have hcov := cov_remove hsep
  have hqhas : ∀ p, q.Has p → Cov (ranges a.free.root) p := fun p hp => ⟨q, hq, hp⟩
  have htot : a.free.total = f.total + q.n := by
    rw [h.inv.total, e3.total, e, e2, lenSum_append, lenSum_append, lenSum]; omega
  have huse := h.use
  -- the state once all of `q` is handed out
  have hJ : J { a with free := f, inUse := a.inUse + q.n } ob (fun p => ow p ∨ q.Has p) := by
    constructor
    · exact e3
    · exact h.sys
    · simp only []; omega
    · exact h.disj
    · intro p
      rw [h.part p]
      simp only [e2]
      rw [hcov p, e]
      constructor
      · rintro (hp | hp)
        · by_cases hqp : q.Has p
          · exact Or.inr (Or.inr hqp)
          · exact Or.inl ⟨hp, hqp⟩
        · exact Or.inr (Or.inl hp)
      · rintro (hp | hp | hp)
        · exact Or.inl hp.1
        · exact Or.inr hp
        · left; rw [← e]; exact hqhas p hp
    · intro p hp
      simp only [e2] at hp
      rw [hcov p, ← e] at hp
      rintro (hn' | hn')
      · exact h.excl p hp.1 hn'
      · exact hp.2 hn'
  unfold take
  rw [e1]
  simp only []
  by_cases hgt : q.n > n
  · rw [if_pos hgt]
    have hin : a.inUse + n + (q.n - n) = a.inUse + q.n := by omega
    rw [hin]
    obtain ⟨a2, r1, r2, r3, r4, r5⟩ := (release_spec hJ (r := ⟨q.s + n, q.n - n⟩) (by simp only []; omega)).2
      (fun p hp => Or.inr (by unfold Rng.Has at *; simp only [] at hp; omega))
    rw [r1]
    refine ⟨a2, rfl, ?_, ?_, r5, fun p hp => hqhas p (by unfold Rng.Has at *; simp only [] at hp; omega)⟩
    · have : (fun p => (ow p ∨ q.Has p) ∧ ¬ (⟨q.s + n, q.n - n⟩ : Rng).Has p) =
          (fun p => ow p ∨ (⟨q.s, n⟩ : Rng).Has p) := by
        funext p
        apply propext
        constructor
        · rintro ⟨hp | hp, hn'⟩
          · exact Or.inl hp
          · right; unfold Rng.Has at *; simp only [] at *; omega
        · rintro (hp | hp)
          · refine ⟨Or.inl hp, fun hr => ?_⟩
            exact h.excl p (hqhas p (by unfold Rng.Has at *; simp only [] at hr; omega)) hp
          · refine ⟨Or.inr ?_, fun hr => ?_⟩ <;> unfold Rng.Has at * <;> simp only [] at * <;> omega
      rw [← this]; exact r2
    · simp only [] at r4; omega
  · rw [if_neg hgt]
    have hqn : q.n = n := by omega
    have hqe : q = ⟨q.s, n⟩ := by cases q; simp_all
    subst hqn
    refine ⟨_, rfl, hJ, rfl, rfl, hqhas⟩

/-- Handing a fresh system range to the free set. -/
theorem grow_spec {a : HA} {ob : List Rng} {ow : PSet} (h : J a ob ow) {r : Rng} (hr : 0 < r.n)
    (hfresh : ∀ p, r.Has p → ¬ Cov ob p) :
    ∃ a1, release { a with fromSystem := a.fromSystem + r.n, inUse := a.inUse + r.n } r = some a1 ∧
      J a1 (r :: ob) ow ∧ a1.fromSystem = a.fromSystem + r.n ∧ a1.inUse = a.inUse ∧
      ∀ p, Cov (ranges a1.free.root) p ↔ Cov (ranges a.free.root) p ∨ r.Has p := by
  have huse := h.use
  have hJ : J { a with fromSystem := a.fromSystem + r.n, inUse := a.inUse + r.n } (r :: ob)
      (fun p => ow p ∨ r.Has p) := by
    constructor
    · exact h.inv
    · simp only [lenSum]; rw [h.sys]; omega
    · simp only []; omega
    · exact List.pairwise_cons.2 ⟨fun b hb p hp hbp => hfresh p hp ⟨b, hb, hbp⟩, h.disj⟩
    · intro p
      rw [Cov.cons_iff, h.part p]
      constructor
      · rintro (hp | hp | hp)
        · exact Or.inr (Or.inr hp)
        · exact Or.inl hp
        · exact Or.inr (Or.inl hp)
      · rintro (hp | hp | hp)
        · exact Or.inr (Or.inl hp)
        · exact Or.inr (Or.inr hp)
        · exact Or.inl hp
    · intro p hp
      rintro (hn | hn)
      · exact h.excl p hp hn
      · exact hfresh p hn ((h.part p).2 (Or.inl hp))
  obtain ⟨a1, r1, r2, r3, r4, r5⟩ := (release_spec hJ hr).2 (fun p hp => Or.inr hp)
  refine ⟨a1, r1, ?_, r5, ?_, r3⟩
  · have : (fun p => (ow p ∨ r.Has p) ∧ ¬ r.Has p) = ow := by
      funext p
      apply propext
      constructor
      · rintro ⟨hp | hp, hn⟩
        · exact hp
        · exact absurd hp hn
      · intro hp
        exact ⟨Or.inl hp, fun hr' => hfresh p hr' ((h.part p).2 (Or.inr hp))⟩
    rw [← this]; exact r2
  · simp only [] at r4; omega

theorem get_spec {a : HA} {ob : List Rng} {ow : PSet} (h : J a ob ow) {n : Nat} (hn : 0 < n)
    {sys : Option Rng} (hs : SysOK ob n sys) :
    ∃ a' res asked, get a n sys = some (a', res, asked) ∧
      J a' (if asked then sys.toList ++ ob else ob) (fun p => ow p ∨ ∃ r, res = some r ∧ r.Has p) ∧
      (asked = true ↔ (∀ r ∈ ranges a.free.root, r.n < n) ∧ n ≤ maxLen) ∧
      (∀ r, res = some r → r.n = n ∧ a'.inUse = a.inUse + n ∧ ∀ p, r.Has p → ¬ ow p ∧
        (Cov (ranges a.free.root) p ∨ asked = true ∧ ∃ s, sys = some s)) ∧
      (res = none → a' = a ∧ (∀ r ∈ ranges a.free.root, r.n < n) ∧ (sys = none ∨ maxLen < n)) := by
  obtain ⟨f1, f2⟩ := find_none hn h.inv
  unfold get
  rw [if_neg (by omega)]
  cases hf : find n a.free.root none with
  | some q =>
    obtain ⟨q1, q2⟩ := f2 q hf
    obtain ⟨a', t1, t2, t3, t4, t5⟩ := take_spec h hn q2 q1
    simp only [t1, Option.map_some]
    refine ⟨_, _, _, rfl, ?_, ?_, ?_, ?_⟩
    · simp only [Bool.false_eq_true, if_false]
      have : (fun p => ow p ∨ ∃ r, some (⟨q.s, n⟩ : Rng) = some r ∧ r.Has p) =
          (fun p => ow p ∨ (⟨q.s, n⟩ : Rng).Has p) := by
        funext p; simp
      rw [this]; exact t2
    · simp only [Bool.false_eq_true, false_iff]
      rintro ⟨hall, _⟩
      have := hall q q2; omega
    · intro r e
      simp only [Option.some.injEq] at e
      subst e
      exact ⟨rfl, t3, fun p hp => ⟨h.excl p (t5 p hp), Or.inl (t5 p hp)⟩⟩
    · simp
  | none =>
    have hall := f1.1 hf
    simp only []
    by_cases hmax : n > maxLen
    · rw [if_pos hmax]
      refine ⟨a, none, false, rfl, ?_, ?_, ?_, ?_⟩
      · simpa using h
      · simp; intro _; omega
      · simp
      · intro _; exact ⟨rfl, hall, Or.inr hmax⟩
    · rw [if_neg hmax]
      cases sys with
      | none =>
        refine ⟨a, none, true, rfl, ?_, ?_, ?_, ?_⟩
        · simpa using h
        · exact ⟨fun _ => ⟨hall, by omega⟩, fun _ => rfl⟩
        · simp
        · intro _; exact ⟨rfl, hall, Or.inl rfl⟩
      | some r =>
        obtain ⟨s1, s2, s3⟩ := hs r rfl
        obtain ⟨a1, g1, g2, g3, g4, g5⟩ := grow_spec h (r := r) (by omega) s3
        simp only [g1]
        obtain ⟨k1, k2⟩ := find_none hn g2.inv
        cases hf2 : find n a1.free.root none with
        | none =>
          exfalso
          -- the fresh range lies inside one free range, which is long enough
          have hall2 := k1.1 hf2
          obtain ⟨x, hx, hx1, hx2⟩ := (g5 r.s).2 (Or.inr ⟨Nat.le_refl _, by omega⟩)
          have hxn := hall2 x hx
          obtain ⟨y, hy, hy1, hy2⟩ := (g5 (x.s + x.n)).2 (Or.inr ⟨by omega, by omega⟩)
          have hsep := g2.inv.sep
          obtain ⟨A, B, e⟩ := List.append_of_mem hx
          rw [e] at hsep hy
          obtain ⟨_, _, _, c4, c5⟩ := hsep.split
          rcases List.mem_append.1 hy with hy | hy
          · have := c4 y hy; omega
          · rcases List.mem_cons.1 hy with rfl | hy
            · omega
            · have := c5 y hy; omega
        | some q =>
          obtain ⟨q1, q2⟩ := k2 q hf2
          obtain ⟨a', t1, t2, t3, t4, t5⟩ := take_spec g2 hn q2 q1
          simp only [t1, Option.map_some]
          refine ⟨_, _, _, rfl, ?_, ?_, ?_, ?_⟩
          · simp only [if_true, Option.toList_some, List.singleton_append]
            have : (fun p => ow p ∨ ∃ r, some (⟨q.s, n⟩ : Rng) = some r ∧ r.Has p) =
                (fun p => ow p ∨ (⟨q.s, n⟩ : Rng).Has p) := by
              funext p; simp
            rw [this]; exact t2
          · exact ⟨fun _ => ⟨hall, by omega⟩, fun _ => rfl⟩
          · intro r' e
            simp only [Option.some.injEq] at e
            subst e
            exact ⟨rfl, by omega, fun p hp => ⟨g2.excl p (t5 p hp), Or.inr ⟨rfl, r, rfl⟩⟩⟩
          · simp

theorem Reach.J {a : HA} {ob : List Rng} {ow : PSet} (h : Reach a ob ow) : J a ob ow := by
  induction h with
  | init => exact J.init
  | get n sys res asked _ hn hs e ih =>
    obtain ⟨a', res', asked', e', j, _⟩ := get_spec ih hn hs
    rw [e] at e'
    simp only [Option.some.injEq, Prod.mk.injEq] at e'
    obtain ⟨rfl, rfl, rfl⟩ := e'
    exact j
  | release r _ hr how e ih =>
    obtain ⟨a', e', j, _⟩ := (release_spec ih hr).2 how
    rw [e] at e'
    simp only [Option.some.injEq] at e'
    subst e'
    exact j

end Verif.HugeAllocator
