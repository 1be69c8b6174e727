import Verif.HugeAddressMap.Lemmas2
/-!
C17: the address map of free hugepage ranges is exactly a set of hugepages held as its maximal runs.
-/
namespace Verif.HugeAddressMap

/-- **C17.** After any history of insertions and removals the map holds exactly the intended set of
hugepages, as its maximal runs in address order (non-empty, with a gap between neighbours), and its counters
are exact: number of ranges, total length, node accounting, and the longest range at the root. -/
theorem map_exact (os : List Op) (ho : ∀ o ∈ os, o.OK) (m : HMap) (h : run HMap.init os = some m) :
    (∀ p, Cov (ranges m.root) p ↔ specRun (fun _ => False) os p) ∧
    Sep (ranges m.root) ∧
    m.used = (ranges m.root).length ∧ m.total = lenSum (ranges m.root) ∧ m.created = m.used + m.freeN ∧
    (∀ r ∈ ranges m.root, r.n ≤ m.root.longest) ∧
    (m.root ≠ .leaf → ∃ r ∈ ranges m.root, r.n = m.root.longest) := by
  obtain ⟨i, c⟩ := Inv.run os HMap.init m (fun _ => False) Inv.init
    (fun p => by simp [HMap.init, ranges, Cov]) ho h
  have hl : ∀ t, LOK t → (∀ r ∈ ranges t, r.n ≤ t.longest) ∧
      (t ≠ .leaf → ∃ r ∈ ranges t, r.n = t.longest) := by
    intro t
    induction t with
    | leaf => intro _; exact ⟨fun r hr => by simp [ranges] at hr, fun h => absurd rfl h⟩
    | node l x r ihl ihr =>
      rintro ⟨l1, l2, l3⟩
      obtain ⟨a1, a2⟩ := ihl l1
      obtain ⟨b1, b2⟩ := ihr l2
      simp only [longest_node, ranges]
      constructor
      · intro q hq
        rcases List.mem_append.1 hq with hq | hq
        · have := a1 q hq; omega
        · rcases List.mem_cons.1 hq with rfl | hq
          · omega
          · have := b1 q hq; omega
      · intro _
        by_cases e1 : x.longest = x.r.n
        · exact ⟨x.r, by simp, e1.symm⟩
        · by_cases e2 : x.longest = l.longest
          · have : l ≠ .leaf := by rintro rfl; simp only [Tree.longest] at *; omega
            obtain ⟨q, hq, e⟩ := a2 this
            exact ⟨q, by simp [hq], by omega⟩
          · have : r ≠ .leaf := by rintro rfl; simp only [Tree.longest] at *; omega
            obtain ⟨q, hq, e⟩ := b2 this
            exact ⟨q, by simp [hq], by omega⟩
  exact ⟨c, i.sep, i.used, i.total, i.created, hl _ i.lok⟩

/-- **C17, checks.** In every reachable state: inserting a range succeeds exactly when none of its hugepages
is already present (otherwise the program stops), and removing the node at `k` is possible exactly when `k`
begins a maximal run. -/
theorem map_step_defined (os : List Op) (ho : ∀ o ∈ os, o.OK) (m : HMap) (h : run HMap.init os = some m)
    (o : Op) (hok : o.OK) :
    (step m o).isSome ↔ specPre (specRun (fun _ => False) os) o := by
  obtain ⟨i, c⟩ := Inv.run os HMap.init m (fun _ => False) Inv.init
    (fun p => by simp [HMap.init, ranges, Cov]) ho h
  have he : Cov (ranges m.root) = specRun (fun _ => False) os := funext fun p => propext (c p)
  obtain ⟨s1, s2⟩ := step_spec i hok
  rw [← he]
  constructor
  · intro hs
    apply Classical.byContradiction
    intro hn
    rw [s1 hn] at hs; simp at hs
  · intro hp
    obtain ⟨m', e, _⟩ := s2 hp
    rw [e]; rfl

/-- **C17, lookups.** `Predecessor(p)` is the range containing `p` if there is one, otherwise the last range
before `p`, and null only if every range lies after `p`. -/
theorem predecessor_exact (os : List Op) (ho : ∀ o ∈ os, o.OK) (m : HMap) (h : run HMap.init os = some m)
    (p : Nat) :
    (∀ r, pred p m.root none = some r →
      r ∈ ranges m.root ∧ r.s ≤ p ∧ (∀ q ∈ ranges m.root, q.s ≤ p → q.s ≤ r.s) ∧
      (Cov (ranges m.root) p → r.Has p)) ∧
    (pred p m.root none = none → ∀ q ∈ ranges m.root, p < q.s) := by
  obtain ⟨i, _⟩ := Inv.run os HMap.init m (fun _ => False) Inv.init
    (fun p => by simp [HMap.init, ranges, Cov]) ho h
  rw [pred_spec p m.root none i.sep, Option.or_none]
  constructor
  · intro r hr
    obtain ⟨A, hA⟩ := List.getLast?_eq_some_iff.1 hr
    have hm : r ∈ (ranges m.root).filter (fun x => decide (x.s ≤ p)) := by rw [hA]; simp
    obtain ⟨m1, m2⟩ := List.mem_filter.1 hm
    simp only [decide_eq_true_eq] at m2
    have hlast : ∀ q ∈ ranges m.root, q.s ≤ p → q.s ≤ r.s ∧ (q = r ∨ q.s + q.n < r.s) := by
      intro q hq hqp
      have hq' : q ∈ A ++ [r] := by rw [← hA]; exact List.mem_filter.2 ⟨hq, by simpa using hqp⟩
      have hp := List.Pairwise.filter (fun x => decide (x.s ≤ p)) i.sep.2
      rw [hA] at hp
      rcases List.mem_append.1 hq' with h' | h'
      · have := (List.pairwise_append.1 hp).2.2 q h' r (by simp)
        exact ⟨by omega, Or.inr this⟩
      · simp only [List.mem_singleton] at h'; subst h'; exact ⟨Nat.le_refl _, Or.inl rfl⟩
    refine ⟨m1, m2, fun q hq hqp => (hlast q hq hqp).1, ?_⟩
    rintro ⟨q, hq, q1, q2⟩
    rcases (hlast q hq q1).2 with rfl | h'
    · exact ⟨q1, q2⟩
    · omega
  · intro hn q hq
    rw [List.getLast?_eq_none_iff] at hn
    have := List.filter_eq_nil_iff.1 hn q hq
    simpa using this

/-- **C17, iteration.** `first()` and `next()` visit the ranges one after the other in address order. -/
theorem iteration_exact (os : List Op) (ho : ∀ o ∈ os, o.OK) (m : HMap) (h : run HMap.init os = some m) :
    first m.root = (ranges m.root)[0]? ∧
    ∀ (i : Nat) (r : Rng), (ranges m.root)[i]? = some r →
      nextOf r.s m.root none = some ((ranges m.root)[i + 1]?) := by
  obtain ⟨hi, _⟩ := Inv.run os HMap.init m (fun _ => False) Inv.init
    (fun p => by simp [HMap.init, ranges, Cov]) ho h
  refine ⟨by rw [first_eq, List.head?_eq_getElem?], ?_⟩
  intro i r hr
  obtain ⟨hlt, hget⟩ := List.getElem?_eq_some_iff.1 hr
  have hsplit : ranges m.root = (ranges m.root).take i ++ r :: (ranges m.root).drop (i + 1) := by
    rw [← hget, ← List.drop_eq_getElem_cons hlt, List.take_append_drop]
  rw [(nextOf_spec r.s m.root none hi.sep.srt).2 ⟨r, List.mem_of_getElem? hr, rfl⟩]
  have hs := hi.sep.srt
  rw [hsplit] at hs
  obtain ⟨_, _, h3, h4, _⟩ := hs.split
  have : (ranges m.root).filter (fun x => decide (r.s < x.s)) = (ranges m.root).drop (i + 1) := by
    conv => lhs; rw [hsplit]
    rw [List.filter_append, List.filter_cons,
      filter_none (A := (ranges m.root).take i) (fun y hy => by have := h3 y hy; simp; omega),
      filter_all (A := (ranges m.root).drop (i + 1)) (fun y hy => by have := h4 y hy; simp; omega)]
    simp
  rw [this, List.head?_drop, Option.or_none]

/-- **C17, balance.** Every subtree of every reachable tree is heap-ordered by priority (what keeps it
balanced in expectation). -/
theorem heap_ordered (os : List Op) (ho : ∀ o ∈ os, o.OK) (m : HMap) (h : run HMap.init os = some m) :
    Heap m.root :=
  (Inv.run os HMap.init m (fun _ => False) Inv.init (fun p => by simp [HMap.init, ranges, Cov]) ho h).1.heap

/-! ### Non-vacuity -/

/-- Two islands, a range joining three, a removal, and a re-insertion. -/
def demo : List Op :=
  [.insert ⟨10, 2⟩, .insert ⟨20, 5⟩, .insert ⟨14, 1⟩, .insert ⟨12, 2⟩, .insert ⟨40, 1⟩, .remove 20, .insert ⟨5, 5⟩]

example : (run HMap.init demo).map (fun m => (ranges m.root, m.total, m.used)) =
    some ([⟨5, 10⟩, ⟨40, 1⟩], 11, 2) := by decide +kernel

example : ∀ o ∈ demo, o.OK := by
  intro o ho
  simp only [demo, List.mem_cons, List.not_mem_nil, or_false] at ho
  rcases ho with rfl | rfl | rfl | rfl | rfl | rfl | rfl <;> simp [Op.OK]

example : run HMap.init [.insert ⟨10, 2⟩, .insert ⟨11, 2⟩] = none := by decide +kernel

end Verif.HugeAddressMap
