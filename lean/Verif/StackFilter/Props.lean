import Verif.StackFilter.Model
/-! C52: the stack-trace filter never forgets a stack that was added and not removed, and forgets everything else. -/
namespace Verif.StackFilter

/-- The hashes added and not yet removed, with multiplicity, after an event. -/
def out' (out : List Nat) : Ev → List Nat
  | .add h v => if 0 ≤ v then List.replicate v.toNat h ++ out else (List.replicate (-v).toNat h).foldl List.erase out
  | _ => out

/-- The user removes only what was added. -/
def Pre (out : List Nat) : Ev → Prop
  | .add h v => v < 0 → (-v).toNat ≤ out.count h
  | _ => True

inductive Reach (c : Cfg) : S → List Nat → Prop where
  | init : Reach c (S.init c) []
  | step {s out e s'} : Reach c s out → Pre out e → step c s e = some s' → Reach c s' (out' out e)

/-- No call is in progress. -/
def Quiet (s : S) : Prop := ∀ l ∈ s.calls, l = []

/-! ### Sums -/

def sumOf {α : Type} (f : α → Int) : List α → Int
  | [] => 0
  | a :: l => f a + sumOf f l

theorem sumOf_append {α : Type} (f : α → Int) (l m : List α) : sumOf f (l ++ m) = sumOf f l + sumOf f m := by
  induction l with
  | nil => simp [sumOf]
  | cons a l ih => simp only [List.cons_append, sumOf, ih]; omega

theorem sumOf_set {α : Type} (f : α → Int) (x y : α) : ∀ (l : List α) (i : Nat), l[i]? = some x →
    sumOf f (l.set i y) = sumOf f l - f x + f y
  | [], i, h => by simp at h
  | a :: l, 0, h => by
    simp only [List.getElem?_cons_zero, Option.some.injEq] at h
    subst h
    simp only [List.set_cons_zero, sumOf]; omega
  | a :: l, i + 1, h => by
    simp only [List.getElem?_cons_succ] at h
    simp only [List.set_cons_succ, sumOf, sumOf_set f x y l i h]; omega

theorem sumOf_replicate {α : Type} (f : α → Int) (n : Nat) (x : α) : sumOf f (List.replicate n x) = n * f x := by
  induction n with
  | zero => simp [sumOf]
  | succ n ih =>
    rw [List.replicate_succ, sumOf, ih, Int.natCast_add, Int.add_mul]
    omega

theorem sumOf_erase {α : Type} [DecidableEq α] (f : α → Int) {x : α} : ∀ {l : List α}, x ∈ l →
    sumOf f (l.erase x) = sumOf f l - f x
  | a :: l, h => by
    by_cases e : a = x
    · subst e; rw [List.erase_cons_head]; simp only [sumOf]; omega
    · rw [List.erase_cons_tail (by simpa using e)]
      have : x ∈ l := by
        rcases List.mem_cons.1 h with h | h
        · exact absurd h.symm e
        · exact h
      simp only [sumOf, sumOf_erase f this]; omega

theorem sumOf_eraseN {α : Type} [DecidableEq α] (f : α → Int) {x : α} : ∀ (n : Nat) {l : List α}, n ≤ l.count x →
    sumOf f ((List.replicate n x).foldl List.erase l) = sumOf f l - n * f x
  | 0, l, _ => by simp
  | n + 1, l, h => by
    have hm : x ∈ l := List.count_pos_iff.1 (by omega)
    rw [List.replicate_succ, List.foldl_cons, sumOf_eraseN f n (by rw [List.count_erase_self]; omega), sumOf_erase f hm,
      Int.natCast_add, Int.add_mul]
    omega

theorem sumOf_nonneg {α : Type} {f : α → Int} (h : ∀ x, 0 ≤ f x) (l : List α) : 0 ≤ sumOf f l := by
  induction l with
  | nil => simp [sumOf]
  | cons a l ih => have := h a; simp only [sumOf]; omega

theorem sumOf_mem {α : Type} {f : α → Int} (h : ∀ x, 0 ≤ f x) {l : List α} {x : α} (hx : x ∈ l) : f x ≤ sumOf f l := by
  induction l with
  | nil => cases hx
  | cons a l ih =>
    simp only [sumOf]
    rcases List.mem_cons.1 hx with e | hx
    · subst e; have := sumOf_nonneg h l; omega
    · have := ih hx; have := h a; omega

theorem sumOf_le {α : Type} {f : α → Int} {b : Int} (h : ∀ x, f x ≤ b) (l : List α) : sumOf f l ≤ l.length * b := by
  induction l with
  | nil => simp [sumOf]
  | cons a l ih =>
    have := h a
    rw [List.length_cons, Int.natCast_add, Int.add_mul]
    simp only [sumOf]
    omega

/-! ### The counters -/

/-- How often a counter belongs to a hash. -/
def occ (c : Cfg) (k h : Nat) : Int := ((c.cells h).count k : Nat)

/-- The same for an entry of the ring: 0 denotes an unused one. -/
def rocc (c : Cfg) (k h : Nat) : Int := if h = 0 then 0 else occ c k h

def weight (c : Cfg) (k : Nat) : Act → Int
  | .takePos h => - rocc c k h
  | .exch _ h => - rocc c k h
  | .bump j d => if j = k then d else 0

theorem occ_nonneg (c : Cfg) (k h : Nat) : 0 ≤ occ c k h := by unfold occ; omega
theorem rocc_nonneg (c : Cfg) (k h : Nat) : 0 ≤ rocc c k h := by
  unfold rocc; split
  · omega
  · exact occ_nonneg ..

theorem cellsN_length (c : Cfg) (n h : Nat) : (c.cellsN n h).length = n := by
  induction n generalizing h with
  | zero => rfl
  | succ n ih => simp [Cfg.cellsN, ih]

theorem occ_le (c : Cfg) (k h : Nat) : occ c k h ≤ c.hashNum := by
  unfold occ
  have := List.count_le_length (a := k) (l := c.cells h)
  rw [Cfg.cells, cellsN_length] at this
  unfold Cfg.cells
  omega

theorem rocc_le (c : Cfg) (k h : Nat) : rocc c k h ≤ c.hashNum := by
  unfold rocc; split
  · omega
  · exact occ_le ..

theorem weight_adds (c : Cfg) (k h : Nat) (d : Int) : sumOf (weight c k) (adds c h d) = d * occ c k h := by
  unfold adds occ
  induction c.cells h with
  | nil => simp [sumOf]
  | cons a l ih =>
    rw [List.map_cons, sumOf, ih, List.count_cons]
    simp only [weight, beq_iff_eq]
    split
    · rw [Int.natCast_add, Int.mul_add]; omega
    · simp

structure Inv (c : Cfg) (s : S) (out : List Nat) : Prop where
  ring : s.ring.length = c.steps
  range : ∀ k, 0 ≤ s.counts k ∧ s.counts k < 65536
  bal : ∀ k, ∃ q : Int, s.counts k + sumOf (sumOf (weight c k)) s.calls = sumOf (occ c k) out + sumOf (rocc c k) s.ring + 65536 * q

theorem Inv.init (c : Cfg) : Inv c (S.init c) [] where
  ring := by simp [S.init]
  range := fun k => by simp [S.init]
  bal := fun k => ⟨0, by simp [S.init, sumOf, sumOf_replicate, rocc]⟩

theorem Inv.step {c : Cfg} (hc : c.OK) {s : S} {out : List Nat} (I : Inv c s out) {e : Ev} {s' : S} (hp : Pre out e)
    (hs : step c s e = some s') : Inv c s' (out' out e) := by
  cases e with
  | add h v =>
    cases hs
    refine ⟨I.ring, I.range, fun k => ?_⟩
    obtain ⟨q, hq⟩ := I.bal k
    refine ⟨q, ?_⟩
    dsimp only
    rw [sumOf_append]
    simp only [sumOf, addCall, out']
    by_cases hv : 0 ≤ v
    · rw [if_pos hv, if_pos hv, sumOf_append, sumOf_replicate]
      simp only [sumOf, weight, weight_adds]
      have : ((v.toNat : Nat) : Int) = v := Int.toNat_of_nonneg hv
      rw [this, Int.add_mul]
      have hr : rocc c k h = (if h = 0 then 0 else 1) * occ c k h := by unfold rocc; split <;> simp
      rw [hr]
      omega
    · rw [if_neg hv, if_neg hv, sumOf_eraseN _ _ (hp (by omega)), weight_adds]
      have : (((-v).toNat : Nat) : Int) = -v := Int.toNat_of_nonneg (by omega)
      rw [this, Int.neg_mul]
      omega
  | decay =>
    cases hs
    refine ⟨I.ring, I.range, fun k => ?_⟩
    obtain ⟨q, hq⟩ := I.bal k
    refine ⟨q, ?_⟩
    dsimp only
    rw [sumOf_append]
    simp only [sumOf, decayCall, weight, rocc, out']
    simp
    exact hq
  | decayAll =>
    cases hs
    refine ⟨I.ring, I.range, fun k => ?_⟩
    obtain ⟨q, hq⟩ := I.bal k
    refine ⟨q, ?_⟩
    dsimp only
    rw [sumOf_append]
    simp only [sumOf, decayAllCall, sumOf_replicate, weight, rocc, out']
    simp
    exact hq
  | run i =>
    simp only [StackFilter.step] at hs
    split at hs
    · rename_i a rest hi
      cases hs
      cases a with
      | takePos h =>
        refine ⟨I.ring, I.range, fun k => ?_⟩
        obtain ⟨q, hq⟩ := I.bal k
        refine ⟨q, ?_⟩
        simp only [act, out', sumOf_set _ _ _ _ _ hi, sumOf_append, sumOf, weight]
        omega
      | exch p h =>
        have hlt : p % c.steps < s.ring.length := by rw [I.ring]; exact Nat.mod_lt _ hc.steps
        have hg : s.ring[p % c.steps]? = some (s.ring[p % c.steps]'hlt) := List.getElem?_eq_getElem hlt
        refine ⟨by simp [act, I.ring], I.range, fun k => ?_⟩
        obtain ⟨q, hq⟩ := I.bal k
        refine ⟨q, ?_⟩
        simp only [act, out', sumOf_set _ _ _ _ _ hi, sumOf_append, sumOf, weight]
        rw [hg, sumOf_set _ _ _ _ _ hg, Option.getD_some]
        generalize s.ring[p % c.steps]'hlt = old at *
        by_cases ho : old = 0
        · rw [if_pos ho]
          have : rocc c k old = 0 := by unfold rocc; rw [if_pos ho]
          rw [this]
          simp only [sumOf]
          omega
        · rw [if_neg ho, weight_adds]
          have : rocc c k old = occ c k old := by unfold rocc; rw [if_neg ho]
          rw [this]
          omega
      | bump j d =>
        refine ⟨I.ring, fun k => ?_, fun k => ?_⟩
        · have := I.range k
          simp only [act]
          split <;> omega
        · obtain ⟨q, hq⟩ := I.bal k
          simp only [act, out', sumOf_set _ _ _ _ _ hi, sumOf_append, sumOf, weight]
          by_cases e : k = j
          · subst e
            refine ⟨q - (s.counts k + d) / 65536, ?_⟩
            simp only [if_true]
            omega
          · refine ⟨q, ?_⟩
            rw [if_neg e, if_neg (Ne.symm e)]
            omega
    · cases hs

theorem Reach.inv {c : Cfg} (hc : c.OK) {s : S} {out : List Nat} (hr : Reach c s out) : Inv c s out := by
  induction hr with
  | init => exact Inv.init c
  | step _ hp hs ih => exact Inv.step hc ih hp hs

theorem quiet_sum {c : Cfg} {k : Nat} : ∀ {l : List (List Act)}, (∀ x ∈ l, x = []) → sumOf (sumOf (weight c k)) l = 0
  | [], _ => rfl
  | a :: l, h => by
    simp only [sumOf, h a (List.mem_cons_self ..), quiet_sum fun x hx => h x (List.mem_cons_of_mem _ hx)]
    rfl

/-- With no call in progress every counter is the exact number of the hashes it stands for, added and not removed or
recently added, modulo 2^16 — whatever the order in which the calls were interleaved. -/
theorem counts_exact {c : Cfg} (hc : c.OK) {s : S} {out : List Nat} (hr : Reach c s out) (hq : Quiet s) (k : Nat) :
    s.counts k = (sumOf (occ c k) out + sumOf (rocc c k) s.ring) % 65536 := by
  have I := hr.inv hc
  obtain ⟨q, e⟩ := I.bal k
  rw [quiet_sum hq] at e
  have := I.range k
  omega

/-- **C52**: no false negative: a stack that was added and not removed as often, or is among the recently added ones, is
contained, unless so many are present that a counter could overflow. -/
theorem tracked_found {c : Cfg} (hc : c.OK) {s : S} {out : List Nat} (hr : Reach c s out) (hq : Quiet s)
    (hcap : (out.length + c.steps) * c.hashNum < 65536) {h : Nat} (hh : h ∈ out ∨ (h ∈ s.ring ∧ h ≠ 0)) :
    contains c s h = true := by
  have I := hr.inv hc
  unfold contains
  rw [List.all_eq_true]
  intro k hk
  have hpos : 1 ≤ occ c k h := by
    unfold occ
    have := List.count_pos_iff.2 hk
    omega
  have h1 := sumOf_nonneg (occ_nonneg c k) out
  have h2 := sumOf_nonneg (rocc_nonneg c k) s.ring
  have h3 := sumOf_le (occ_le c k) out
  have h4 := sumOf_le (rocc_le c k) s.ring
  have h5 : 1 ≤ sumOf (occ c k) out + sumOf (rocc c k) s.ring := by
    rcases hh with hh | ⟨hh, h0⟩
    · have := sumOf_mem (occ_nonneg c k) hh; omega
    · have := sumOf_mem (rocc_nonneg c k) hh
      unfold rocc at this h2 ⊢
      rw [if_neg h0] at this
      omega
  have h6 : sumOf (occ c k) out + sumOf (rocc c k) s.ring < 65536 := by
    rw [I.ring] at h4
    have h7 : (((out.length + c.steps) * c.hashNum : Nat) : Int) < 65536 := by omega
    rw [Int.natCast_mul, Int.natCast_add, Int.add_mul] at h7
    omega
  rw [counts_exact hc hr hq, bne_iff_ne]
  omega

/-- **C52**: with everything removed and the ring empty, no stack is contained. -/
theorem empty_forgets {c : Cfg} (hc : c.OK) {s : S} (hr : Reach c s []) (hq : Quiet s) (hring : ∀ x ∈ s.ring, x = 0) (h : Nat) :
    contains c s h = false := by
  have hz : sumOf (rocc c (h % c.size)) s.ring = 0 := by
    have : s.ring = List.replicate s.ring.length 0 := List.eq_replicate_iff.2 ⟨rfl, hring⟩
    rw [this, sumOf_replicate]
    unfold rocc
    rw [if_pos rfl]
    omega
  have hcount := counts_exact hc hr hq (h % c.size)
  rw [hz] at hcount
  unfold contains Cfg.cells
  cases hn : c.hashNum with
  | zero => have := hc.hashNum; omega
  | succ n =>
    simp only [Cfg.cellsN, List.all_cons]
    rw [hcount]
    simp [sumOf]

/-! ### Calls that are not interleaved -/

/-- An upper bound for the number of atomic operations left. -/
def cost (c : Cfg) : List Act → Nat
  | [] => 0
  | .takePos _ :: l => 2 + c.hashNum + cost c l
  | .exch _ _ :: l => 1 + c.hashNum + cost c l
  | .bump _ _ :: l => 1 + cost c l

theorem cost_adds (c : Cfg) (h : Nat) (d : Int) (l : List Act) : cost c (adds c h d ++ l) = c.hashNum + cost c l := by
  have : ∀ m : List Nat, cost c (m.map (fun k => Act.bump k d) ++ l) = m.length + cost c l := by
    intro m
    induction m with
    | nil => simp
    | cons a m ih => rw [List.map_cons, List.cons_append, cost, ih, List.length_cons]; omega
  rw [adds, this, Cfg.cells, cellsN_length]

theorem act_calls (c : Cfg) (s : S) (x : List (List Act)) (a : Act) :
    act c { s with calls := x } a = ({ (act c s a).1 with calls := x }, (act c s a).2) := by
  cases a <;> rfl

/-- What an uninterrupted call does is one of the possible interleavings. -/
theorem runCall_reach {c : Cfg} {out : List Nat} (cs : List (List Act)) : ∀ (n : Nat) (s : S) (l : List Act), cost c l ≤ n →
    Reach c { s with calls := cs ++ [l] } out → Reach c { runCall c n s l with calls := cs ++ [[]] } out
  | n, s, [], _, hr => by cases n <;> exact hr
  | 0, s, a :: l, hn, _ => by cases a <;> simp [cost] at hn
  | n + 1, s, a :: l, hn, hr => by
    have hcost : cost c ((act c s a).2 ++ l) ≤ n := by
      cases a with
      | takePos h => simp only [act, cost, List.cons_append, List.nil_append] at hn ⊢; omega
      | exch p h =>
        simp only [act, cost] at hn ⊢
        split
        · simp only [List.nil_append]; omega
        · rw [cost_adds]; omega
      | bump k d => simp only [act, cost, List.nil_append] at hn ⊢; omega
    refine runCall_reach cs n _ _ hcost ?_
    have hstep : StackFilter.step c { s with calls := cs ++ [a :: l] } (.run cs.length) =
        some { (act c s a).1 with calls := cs ++ [(act c s a).2 ++ l] } := by
      simp only [StackFilter.step]
      rw [show (cs ++ [a :: l])[cs.length]? = some (a :: l) by simp]
      simp only [act_calls]
      simp
    exact Reach.step (e := .run cs.length) hr trivial hstep

/-- The ring after the hashes `hs` were put in one after the other. -/
def fillRing (D : Nat) : List Nat → Nat → List Nat → List Nat
  | ring, _, [] => ring
  | ring, pos, h :: hs => fillRing D (ring.set (pos % D) h) ((pos + 1) % 2 ^ 64) hs

/-- The hashes a call will put into the ring. -/
def puts : List Act → List Nat
  | [] => []
  | .takePos h :: l => h :: puts l
  | _ :: l => puts l

theorem puts_adds (c : Cfg) (h : Nat) (d : Int) (l : List Act) : puts (adds c h d ++ l) = puts l := by
  unfold adds
  induction c.cells h with
  | nil => rfl
  | cons a m ih => exact ih

theorem runCall_ring {c : Cfg} : ∀ (n : Nat) (s : S) (l : List Act), cost c l ≤ n → (∀ a ∈ l, ∀ p h, a ≠ .exch p h) →
    (runCall c n s l).ring = fillRing c.steps s.ring s.pos (puts l)
  | n, s, [], _, _ => by cases n <;> rfl
  | 0, s, a :: l, hn, _ => by cases a <;> simp [cost] at hn
  | n + 1, s, .bump k d :: l, hn, h => by
    have := runCall_ring (c := c) n (act c s (.bump k d)).1 l (by simp only [cost] at hn; omega) (fun a ha => h a (List.mem_cons_of_mem _ ha))
    exact this
  | n + 1, s, .exch p h' :: l, _, h => absurd rfl (h _ (List.mem_cons_self ..) p h')
  | 1, s, .takePos h' :: l, hn, _ => by simp only [cost] at hn; omega
  | n + 2, s, .takePos h' :: l, hn, h => by
    have hl : ∀ a ∈ l, ∀ p h, a ≠ .exch p h := fun a ha => h a (List.mem_cons_of_mem _ ha)
    have hb : ∀ (o : Nat), ∀ a ∈ (if o = 0 then [] else adds c o (-1)) ++ l, ∀ p h, a ≠ .exch p h := by
      intro o a ha p h2
      rcases List.mem_append.1 ha with ha | ha
      · split at ha
        · cases ha
        · obtain ⟨k, -, rfl⟩ := List.mem_map.1 ha
          exact fun e => by cases e
      · exact hl a ha p h2
    have hcost : ∀ o : Nat, cost c ((if o = 0 then [] else adds c o (-1)) ++ l) ≤ n := by
      intro o
      simp only [cost] at hn
      split
      · simp only [List.nil_append]; omega
      · rw [cost_adds]; omega
    have := runCall_ring n { s with pos := (s.pos + 1) % 2 ^ 64, ring := s.ring.set (s.pos % c.steps) h' }
      ((if s.ring[s.pos % c.steps]?.getD 0 = 0 then [] else adds c (s.ring[s.pos % c.steps]?.getD 0) (-1)) ++ l) (hcost _) (hb _)
    refine Eq.trans this ?_
    dsimp only
    have hp : ∀ o : Nat, puts ((if o = 0 then [] else adds c o (-1)) ++ l) = puts l := by
      intro o
      split
      · rfl
      · exact puts_adds ..
    rw [hp]
    rfl

theorem fillRing_length (D : Nat) : ∀ (hs ring : List Nat) (pos : Nat), (fillRing D ring pos hs).length = ring.length
  | [], _, _ => rfl
  | h :: hs, ring, pos => by rw [fillRing, fillRing_length D hs, List.length_set]

theorem wrap_mod {D : Nat} (hD : D ∣ 2 ^ 64) (x : Nat) : x % 2 ^ 64 % D = x % D := Nat.mod_mod_of_dvd x hD

theorem add_wrap {D : Nat} (hD : D ∣ 2 ^ 64) (x t : Nat) : (x % 2 ^ 64 + t) % D = (x + t) % D := by
  rw [Nat.add_mod, wrap_mod hD, ← Nat.add_mod]

theorem mod_inj {D p i j : Nat} (hi : i < D) (hj : j < D) (h : (p + i) % D = (p + j) % D) : i = j := by
  have h1 := Nat.div_add_mod (p + i) D
  have h2 := Nat.div_add_mod (p + j) D
  rcases Nat.lt_trichotomy ((p + i) / D) ((p + j) / D) with hl | he | hl
  · have := Nat.mul_le_mul_left D (show (p + i) / D + 1 ≤ (p + j) / D from hl)
    rw [Nat.mul_add] at this; omega
  · rw [he] at h1; omega
  · have := Nat.mul_le_mul_left D (show (p + j) / D + 1 ≤ (p + i) / D from hl)
    rw [Nat.mul_add] at this; omega

theorem fillRing_keep {D : Nat} (hD : D ∣ 2 ^ 64) : ∀ (hs ring : List Nat) (pos q : Nat),
    (∀ i, i < hs.length → (pos + i) % D ≠ q) → (fillRing D ring pos hs)[q]? = ring[q]?
  | [], _, _, _, _ => rfl
  | h :: hs, ring, pos, q, hne => by
    rw [fillRing, fillRing_keep hD hs]
    · rw [List.getElem?_set_ne]
      exact hne 0 (by simp)
    · intro i hi
      rw [add_wrap hD, show pos + 1 + i = pos + (i + 1) by omega]
      exact hne (i + 1) (by simpa using hi)

theorem fillRing_get {D : Nat} (h0 : 0 < D) (hD : D ∣ 2 ^ 64) : ∀ (hs ring : List Nat) (pos t : Nat), ring.length = D → hs.length ≤ D →
    (ht : t < hs.length) → (fillRing D ring pos hs)[(pos + t) % D]? = some hs[t]
  | h :: hs, ring, pos, 0, hr, hl, ht => by
    rw [fillRing, fillRing_keep hD]
    · simp only [Nat.add_zero, List.getElem_cons_zero]
      rw [List.getElem?_set_self (by rw [hr]; exact Nat.mod_lt _ h0)]
    · intro i hi e
      rw [add_wrap hD, show pos + 1 + i = pos + (i + 1) by omega] at e
      have := mod_inj (by simp only [List.length_cons] at hl; omega) h0 e
      omega
  | h :: hs, ring, pos, t + 1, hr, hl, ht => by
    rw [fillRing]
    have := fillRing_get h0 hD hs (ring.set (pos % D) h) ((pos + 1) % 2 ^ 64) t (by simp [hr])
      (by simp only [List.length_cons] at hl; omega) (by simpa using ht)
    rw [add_wrap hD, show pos + 1 + t = pos + (t + 1) by omega] at this
    simpa using this

theorem fillRing_all {D : Nat} (h0 : 0 < D) (hD : D ∣ 2 ^ 64) {hs ring : List Nat} {pos : Nat} (hr : ring.length = D)
    (hl : hs.length = D) {x : Nat} (hx : x ∈ fillRing D ring pos hs) : x ∈ hs := by
  obtain ⟨j, hj, rfl⟩ := List.getElem_of_mem hx
  rw [fillRing_length, hr] at hj
  have hm := Nat.mod_lt pos h0
  -- the call that wrote position `j`
  have key : ∃ t, t < D ∧ (pos + t) % D = j := by
    by_cases hle : pos % D ≤ j
    · refine ⟨j - pos % D, by omega, ?_⟩
      rw [Nat.add_mod, Nat.mod_eq_of_lt (show j - pos % D < D by omega), show pos % D + (j - pos % D) = j by omega, Nat.mod_eq_of_lt hj]
    · refine ⟨j + D - pos % D, by omega, ?_⟩
      rw [Nat.add_mod, Nat.mod_eq_of_lt (show j + D - pos % D < D by omega), show pos % D + (j + D - pos % D) = j + D by omega,
        Nat.add_mod_right, Nat.mod_eq_of_lt hj]
  obtain ⟨t, ht, e⟩ := key
  have := fillRing_get h0 hD hs ring pos t hr (by omega) (by omega)
  rw [e] at this
  obtain ⟨_, e2⟩ := List.getElem?_eq_some_iff.1 this
  rw [e2]
  exact List.getElem_mem _

/-- `GetNextHash` applied `i` times. -/
def hashN (c : Cfg) (h : Nat) : Nat → Nat
  | 0 => h
  | i + 1 => c.next (hashN c h i)

theorem hashN_next (c : Cfg) (h : Nat) : ∀ i, hashN c (c.next h) i = hashN c h (i + 1)
  | 0 => rfl
  | i + 1 => by rw [hashN, hashN_next c h i]; rfl

/-- A stack is contained if and only if the counters of all its `kHashNum` successive hashes are positive. -/
theorem contains_iff (c : Cfg) (s : S) (h : Nat) :
    contains c s h = true ↔ ∀ i, i < c.hashNum → s.counts (hashN c h i % c.size) ≠ 0 := by
  unfold contains Cfg.cells
  generalize c.hashNum = n
  induction n generalizing h with
  | zero => simp [Cfg.cellsN]
  | succ n ih =>
    simp only [Cfg.cellsN, List.all_cons, Bool.and_eq_true, ih, bne_iff_ne, hashN_next]
    constructor
    · rintro ⟨h0, h1⟩ i hi
      cases i with
      | zero => exact h0
      | succ i => exact h1 i (by omega)
    · exact fun h1 => ⟨h1 0 (by omega), fun i hi => h1 (i + 1) (by omega)⟩

/-- **C52**: once everything that was added has been removed and `DecayAll` has run, no stack is contained. -/
theorem decayAll_forgets {c : Cfg} (hc : c.OK) {s : S} (hr : Reach c s []) (hq : Quiet s) {n : Nat}
    (hn : cost c (decayAllCall c) ≤ n) (h : Nat) : contains c (runCall c n s (decayAllCall c)) h = false := by
  have hr1 : Reach c { s with calls := s.calls ++ [decayAllCall c] } [] := Reach.step (e := .decayAll) hr trivial rfl
  have hr2 := runCall_reach s.calls n s _ hn hr1
  have hring := runCall_ring n s (decayAllCall c) hn (by
    intro a ha p h e
    rw [(List.mem_replicate.1 ha).2] at e
    cases e)
  have hputs : puts (decayAllCall c) = List.replicate c.steps 0 := by
    unfold decayAllCall
    induction c.steps with
    | zero => rfl
    | succ m ih => rw [List.replicate_succ, puts, ih, List.replicate_succ]
  rw [hputs] at hring
  have := empty_forgets hc hr2 (by
    intro l hl
    rcases List.mem_append.1 hl with hl | hl
    · exact hq l hl
    · exact List.mem_singleton.1 hl) (by
    intro x hx
    dsimp only at hx
    rw [hring] at hx
    exact (List.mem_replicate.1 (fillRing_all hc.steps hc.ring (hr.inv hc).ring (by simp) hx)).2) h
  exact this

/-- Additions of the stacks `hs`, one after the other, each uninterrupted. -/
def addAll (c : Cfg) (n : Nat) : S → List Nat → S
  | s, [] => s
  | s, h :: hs => addAll c n (runCall c n s (addCall c h 1)) hs

theorem addCall_cost (c : Cfg) (h : Nat) : cost c (addCall c h 1) = 2 + 2 * c.hashNum := by
  have := cost_adds c h (1 + if h = 0 then 0 else 1) []
  rw [List.append_nil] at this
  simp only [addCall, show (0 : Int) ≤ 1 by decide, if_true, cost, this]
  omega

theorem addCall_puts (c : Cfg) (h : Nat) : puts (addCall c h 1) = [h] := by
  have := puts_adds c h (1 + if h = 0 then 0 else 1) []
  rw [List.append_nil] at this
  simp only [addCall, show (0 : Int) ≤ 1 by decide, if_true, puts, this]

theorem runCall_pos {c : Cfg} : ∀ (n : Nat) (s : S) (l : List Act), cost c l ≤ n → puts l = [] → (runCall c n s l).pos = s.pos
  | n, s, [], _, _ => by cases n <;> rfl
  | 0, s, a :: l, hn, _ => by cases a <;> simp [cost] at hn
  | n + 1, s, .bump k d :: l, hn, h => by
    have := runCall_pos (c := c) n (act c s (.bump k d)).1 l (by simp only [cost] at hn; omega) h
    exact this
  | n + 1, s, .exch p h' :: l, hn, h => by
    have hcost : ∀ o : Nat, cost c ((if o = 0 then [] else adds c o (-1)) ++ l) ≤ n := by
      intro o
      simp only [cost] at hn
      split
      · simp only [List.nil_append]; omega
      · rw [cost_adds]; omega
    have hp : ∀ o : Nat, puts ((if o = 0 then [] else adds c o (-1)) ++ l) = [] := by
      intro o
      split
      · exact h
      · rw [puts_adds]; exact h
    have := runCall_pos (c := c) n { s with ring := s.ring.set (p % c.steps) h' } _ (hcost _) (hp (s.ring[p % c.steps]?.getD 0))
    exact this
  | n + 1, s, .takePos h' :: l, _, h => by simp [puts] at h

theorem addCall_pos {c : Cfg} {n : Nat} (hn : 2 + 2 * c.hashNum ≤ n) (s : S) (h : Nat) :
    (runCall c n s (addCall c h 1)).pos = (s.pos + 1) % 2 ^ 64 := by
  obtain ⟨m, rfl⟩ : ∃ m, n = m + 1 := ⟨n - 1, by omega⟩
  have hc := addCall_cost c h
  have hp := addCall_puts c h
  generalize hl : addCall c h 1 = l at hc hp
  have : ∃ r, l = .takePos h :: r := by
    rw [← hl]; unfold addCall; rw [if_pos (by decide)]; exact ⟨_, rfl⟩
  obtain ⟨r, rfl⟩ := this
  simp only [cost] at hc
  simp only [puts, List.cons.injEq, true_and] at hp
  have := runCall_pos (c := c) m (act c s (.takePos h)).1 (.exch s.pos h :: r) (by simp only [cost]; omega) hp
  exact this

theorem addAll_spec {c : Cfg} {n : Nat} (hn : 2 + 2 * c.hashNum ≤ n) : ∀ (hs : List Nat) {s : S} {cs : List (List Act)} {out : List Nat},
    Reach c { s with calls := cs } out → (∀ l ∈ cs, l = []) →
    ∃ cs' out', Reach c { addAll c n s hs with calls := cs' } out' ∧ (∀ l ∈ cs', l = []) ∧ out'.length = out.length + hs.length ∧
      (addAll c n s hs).ring = fillRing c.steps s.ring s.pos hs
  | [], s, cs, out, hr, hcs => ⟨cs, out, hr, hcs, by simp, rfl⟩
  | h :: hs, s, cs, out, hr, hcs => by
    have hcost : cost c (addCall c h 1) ≤ n := by rw [addCall_cost]; exact hn
    have hr1 : Reach c { s with calls := cs ++ [addCall c h 1] } (out' out (.add h 1)) :=
      Reach.step (e := .add h 1) hr (fun hlt => absurd hlt (by decide)) rfl
    have hr2 := runCall_reach cs n s _ hcost hr1
    obtain ⟨cs', o', e1, e2, e3, e4⟩ := addAll_spec hn hs hr2 (by
      intro l hl
      rcases List.mem_append.1 hl with hl | hl
      · exact hcs l hl
      · exact List.mem_singleton.1 hl)
    refine ⟨cs', o', e1, e2, ?_, ?_⟩
    · rw [e3]; simp [out']; omega
    · refine Eq.trans e4 ?_
      rw [addCall_pos hn, runCall_ring n s _ hcost (by
        intro a ha p h2 e
        subst e
        unfold addCall at ha
        rw [if_pos (by decide)] at ha
        rcases List.mem_cons.1 ha with ha | ha
        · cases ha
        · obtain ⟨k, -, e⟩ := List.mem_map.1 ha
          cases e), addCall_puts]
      rfl

/-- **C52**: right after the stacks `hs` were added one after the other, at most `kDecaySteps` of them, every one of them is
contained because it is still in the ring. -/
theorem recent_found {c : Cfg} (hc : c.OK) {s : S} {out : List Nat} (hr : Reach c s out) (hq : Quiet s) {hs : List Nat}
    (hlen : hs.length ≤ c.steps) {n : Nat} (hn : 2 + 2 * c.hashNum ≤ n)
    (hcap : (out.length + hs.length + c.steps) * c.hashNum < 65536) {h : Nat} (hh : h ∈ hs) (h0 : h ≠ 0) :
    contains c (addAll c n s hs) h = true := by
  obtain ⟨cs', o', e1, e2, e3, e4⟩ := addAll_spec hn hs (s := s) (cs := s.calls) hr hq
  obtain ⟨t, ht, rfl⟩ := List.getElem_of_mem hh
  have hg := fillRing_get hc.steps hc.ring hs s.ring s.pos t (hr.inv hc).ring hlen ht
  have := tracked_found hc e1 e2 (by rw [e3]; exact hcap) (h := hs[t]) (Or.inr ⟨by
    dsimp only
    rw [e4]
    exact List.mem_of_getElem? hg, h0⟩)
  exact this

end Verif.StackFilter
