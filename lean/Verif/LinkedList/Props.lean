import Verif.LinkedList.Lemmas
/-! C38: the intrusive lists hold exactly the elements inserted and not removed, in order, with exact lengths. -/
namespace Verif.LinkedList

theorem Hist.inv {s : S} {L : List Ptr} (h : Hist s L) : SInv s L := by
  induction h with
  | new nxt => exact ⟨rfl, by simp, rfl⟩
  | @push s s' L p _ hn e ih =>
    have hp : p ≠ 0 := by
      intro hp
      simp [LinkedList.push, sllSetNext, hp] at e
    obtain ⟨s1, e1, h1⟩ := push_spec ih hp hn
    rw [e, Option.some.injEq] at e1
    exact e1 ▸ h1
  | @pop s s' L p _ e ih =>
    obtain ⟨s1, e1, h1, _⟩ := tryPop_spec ih
    rw [e] at e1
    simp only [Option.some.injEq, Prod.mk.injEq, and_true] at e1
    exact e1 ▸ h1
  | @pushBatch s s' L b _ hnd hb e ih =>
    have hne : b ≠ [] := by
      intro hc; simp [hc, LinkedList.pushBatch] at e
    have hnz : ∀ (b : List Ptr) (nxt : Ptr → Ptr) (t : Ptr) nxt', chain nxt t b = some nxt' → ∀ p ∈ b, p ≠ 0 := by
      intro b
      induction b with
      | nil => intro _ _ _ _ p hp; simp at hp
      | cons x r ihb =>
        intro nxt t nxt' e p hp
        have hx : x ≠ 0 := by
          intro hx
          cases r <;> simp [chain, sllSetNext, hx] at e
        rcases List.mem_cons.1 hp with rfl | hp
        · exact hx
        · cases r with
          | nil => simp at hp
          | cons y r =>
            simp only [chain, sllSetNext, if_neg hx] at e
            exact ihb _ _ _ e p hp
    have hbz : ∀ p ∈ b, p ≠ 0 := by
      cases b with
      | nil => exact absurd rfl hne
      | cons x r =>
        unfold LinkedList.pushBatch at e
        simp only [] at e
        cases hc : chain s.nxt s.list (x :: r) with
        | none => rw [hc] at e; simp at e
        | some n => exact hnz _ _ _ _ hc
    obtain ⟨s1, e1, h1⟩ := pushBatch_spec ih hne hnd (fun p hp => ⟨hbz p hp, hb p hp⟩)
    rw [e, Option.some.injEq] at e1
    exact e1 ▸ h1
  | @popBatch s s' b L _ e ih =>
    obtain ⟨s1, e1, h1, _⟩ := popBatch_spec ih
    rw [e] at e1
    simp only [Option.some.injEq, Prod.mk.injEq, and_true] at e1
    exact e1 ▸ h1
  | @write s L p v _ hp ih =>
    exact ⟨ih.holds.congr (fun x hx => upd_ne _ _ (fun e => hp (e ▸ hx))), ih.nodup, ih.len⟩

/-- C38 (singly linked): after any history the chain in memory is exactly the expected sequence, without repeats, and
the recorded length is its length; the list reports empty exactly when it is. -/
theorem list_exact {s : S} {L : List Ptr} (h : Hist s L) :
    Holds s.nxt s.list L ∧ L.Nodup ∧ s.length = L.length ∧ (s.list = 0 ↔ L = []) := by
  have hi := h.inv
  refine ⟨hi.holds, hi.nodup, hi.len, ?_⟩
  cases L with
  | nil => have h0 : s.list = 0 := hi.holds; simp [h0]
  | cons x L => obtain ⟨a, b, _⟩ := hi.holds; simp [a, b]

/-- C38 (singly linked): every operation is defined in every reachable state and does what its name says: push adds in
front; pop removes the front element or reports an empty list and changes nothing; a pushed batch goes in front in
order; a popped batch is the first `n` elements in order. -/
theorem list_steps {s : S} {L : List Ptr} (h : Hist s L) :
    (∀ p, p ≠ 0 → p ∉ L → ∃ s', push s p = some s' ∧ Hist s' (p :: L)) ∧
    (L = [] → tryPop s = some (s, none)) ∧
    (∀ p R, L = p :: R → ∃ s', tryPop s = some (s', some p) ∧ Hist s' R) ∧
    (∀ b, b ≠ [] → b.Nodup → (∀ p ∈ b, p ≠ 0 ∧ p ∉ L) → ∃ s', pushBatch s b = some s' ∧ Hist s' (b ++ L)) ∧
    (∀ n, n ≤ L.length → ∃ s', popBatch s n = some (s', L.take n) ∧ Hist s' (L.drop n)) := by
  have hi := h.inv
  refine ⟨?_, ?_, ?_, ?_, ?_⟩
  · intro p hp hn
    obtain ⟨s', e, _⟩ := push_spec hi hp hn
    exact ⟨s', e, h.push hn e⟩
  · rintro rfl
    exact tryPop_spec hi
  · rintro p R rfl
    obtain ⟨s', e, _⟩ := tryPop_spec hi
    exact ⟨s', e, h.pop e⟩
  · intro b hne hnd hb
    obtain ⟨s', e, _⟩ := pushBatch_spec hi hne hnd hb
    exact ⟨s', e, h.pushBatch hnd (fun p hp => (hb p hp).2) e⟩
  · intro n hn
    have hL : L = L.take n ++ L.drop n := (List.take_append_drop n L).symm
    rw [hL] at hi
    obtain ⟨s', e, _⟩ := popBatch_spec hi
    have hlen : (L.take n).length = n := by rw [List.length_take]; omega
    rw [hL] at h
    refine ⟨s', ?_, h.popBatch e⟩
    rw [hlen] at e
    exact e

/-- Popping more than is there is never silently accepted. -/
theorem popBatch_too_many {s : S} {L : List Ptr} (h : Hist s L) {n : Nat} (hn : L.length < n) : popBatch s n = none := by
  have hl := h.inv.len
  unfold popBatch subLen
  rw [if_neg (by omega)]
  split <;> simp_all

/-- C38 (doubly linked): over any history of any number of lists sharing elements, iterating a list forwards gives
exactly its expected sequence and backwards the reverse; `empty`, `first`, `last` and the length agree; no element is on
two lists or twice on one. -/
theorem tlist_exact {H : List Ptr} {m : M} {c : Ptr → List Ptr} (hr : Reach H m c) :
    (∀ h ∈ H, (∀ fuel, (c h).length ≤ fuel →
        iter m h fuel (m.next h) = some (c h) ∧ riter m h fuel (m.prev h) = some (c h).reverse) ∧
      isEmpty m h = (c h).isEmpty ∧ first m h = (c h).head? ∧ last m h = (c h).getLast? ∧ (c h).Nodup) ∧
    (∀ h ∈ H, ∀ h' ∈ H, h ≠ h' → ∀ x ∈ c h, x ∉ c h') := by
  have hi := hr.inv
  refine ⟨?_, fun h hh h' hh' hne x hx hx' => hi.disj h hh h' hh' hne x (by simp [hx]) (by simp [hx'])⟩
  intro h hh
  have hl := hi.lists h hh
  obtain ⟨hn, hnd⟩ := List.nodup_cons.1 hl.nodup
  have hlk := hl.linked
  obtain ⟨y, Q, ey⟩ : ∃ y Q, c h ++ [h] = y :: Q := by
    cases c h with
    | nil => exact ⟨h, [], rfl⟩
    | cons b B => exact ⟨b, B ++ [h], rfl⟩
  obtain ⟨P, x, ex⟩ : ∃ P x, h :: c h = P ++ [x] := ⟨(h :: c h).dropLast, (h :: c h).getLast (by simp),
    (List.dropLast_concat_getLast (by simp)).symm⟩
  have hlk1 := hlk
  rw [ey] at hlk1
  have hlk2 : Linked m (P ++ x :: [h]) := by
    have : h :: (c h ++ [h]) = P ++ x :: [h] := by rw [← List.cons_append, ex, List.append_assoc]; rfl
    rw [← this]; exact hlk
  have hy : m.next h = y := hlk1.1
  have hx : m.prev h = x := ((Linked.split m x [h] P).1 hlk2).2.2.1
  have hnz := hi.nzx h hh
  refine ⟨fun fuel hf => ⟨?_, ?_⟩, ?_, ?_, ?_, hnd⟩
  · rw [hy]; exact iter_spec (c h) y Q fuel ey hlk1.2.2 hn hf
  · rw [hx]; exact riter_spec _ (c h) P x fuel rfl ex ((Linked.split m x [h] P).1 hlk2).1 hn hf
  · unfold isEmpty
    rw [hy]
    cases hc : c h with
    | nil => rw [hc] at ey; simp at ey; simp [ey.1]
    | cons b B =>
      rw [hc] at ey hn; simp only [List.cons_append, List.cons.injEq] at ey
      have : y ≠ h := fun e => hn (by rw [← e, ← ey.1]; simp)
      simp [this]
  · unfold first isEmpty
    rw [hy]
    cases hc : c h with
    | nil => rw [hc] at ey; simp at ey; simp [ey.1]
    | cons b B =>
      rw [hc] at ey hn hnz; simp only [List.cons_append, List.cons.injEq] at ey
      have : y ≠ h := fun e => hn (by rw [← e, ← ey.1]; simp)
      have h0 : y ≠ 0 := by rw [← ey.1]; exact hnz b (by simp)
      simp [this, h0, ey.1]
  · unfold last isEmpty
    rw [hy, hx]
    cases hc : c h with
    | nil => rw [hc] at ey; simp at ey; simp [ey.1]
    | cons b B =>
      rw [hc] at ey hn hnz ex; simp only [List.cons_append, List.cons.injEq] at ey
      have : y ≠ h := fun e => hn (by rw [← e, ← ey.1]; simp)
      have hxl : (b :: B).getLast? = some x := by
        have h1 : (h :: b :: B).getLast? = some x := by rw [ex]; simp
        rw [List.getLast?_cons_cons] at h1
        exact h1
      have h0 : x ≠ 0 := hnz x (List.mem_of_getLast? hxl)
      rw [hxl]
      simp [this, h0]

/-- C38 (doubly linked): every operation with its precondition met is defined and performs exactly the specified change
of one sequence; removal reports whether the list became empty. -/
theorem tlist_steps {H : List Ptr} {m : M} {c c' : Ptr → List Ptr} (hr : Reach H m c) {op : Op} {r : Option Bool}
    (hs : SpecStep H c op c' r) : ∃ m', exec m op = some (m', r) ∧ Reach H m' c' := by
  obtain ⟨m', e, _⟩ := exec_spec hr.inv hs
  exact ⟨m', e, hr.step hs e⟩

/-- With the debug checks, inserting an element that is on a list, or removing one that is not on this list, is
caught. -/
theorem tlist_misuse {H : List Ptr} {m : M} {c : Ptr → List Ptr} (hr : Reach H m c) {h x : Ptr} (hh : h ∈ H) :
    ((∃ h' ∈ H, x ∈ c h') → prepend m h x = none ∧ append m h x = none) ∧ (x ∉ c h → remove m h x = none) := by
  have hi := hr.inv
  refine ⟨?_, ?_⟩
  · rintro ⟨h', hh', hx⟩
    have : m.owner x ≠ 0 := by rw [hi.own' h' hh' x hx]; exact fun e => hi.nz (e ▸ hh')
    simp [prepend, append, elemAppend, elemPrepend, this]
  · intro hx
    have : m.owner x ≠ h := by
      intro e
      have hz : m.owner x ≠ 0 := by rw [e]; exact fun e => hi.nz (e ▸ hh)
      obtain ⟨h', hh', e1, e2⟩ := hi.own x hz
      rw [e] at e1
      exact hx (e1 ▸ e2)
    simp [remove, this]

/-! ### Concrete histories -/

/-- Two lists (heads 1 and 2) sharing elements. -/
def demo : Option (List Ptr × List Ptr × Option Bool) := do
  let m0 := [1, 2].foldl initHead ⟨fun _ => 0, fun _ => 0, fun _ => 0⟩
  let (m, _) ← exec m0 (.prepend 1 10)
  let (m, _) ← exec m (.append 1 11)
  let (m, _) ← exec m (.appendAt 1 10 12)
  let (m, _) ← exec m (.prependAt 1 11 13)
  let (m, _) ← exec m (.remove 1 12)
  let (m, _) ← exec m (.prepend 2 12)
  let (m, r) ← exec m (.remove 2 12)
  let (m, _) ← exec m (.append 2 12)
  let a ← iter m 1 9 (m.next 1)
  let b ← riter m 2 9 (m.prev 2)
  pure (a, b, r)

example : demo = some ([10, 13, 11], [12], some true) := by decide

example : ((pushBatch ⟨fun _ => 99, 0, 0⟩ [5, 6, 7]).bind (push · 4)).bind
    (fun s => (popBatch s 3).map fun r => (r.2, r.1.list, r.1.length)) = some ([4, 5, 6], 7, 1) := by decide

end Verif.LinkedList
