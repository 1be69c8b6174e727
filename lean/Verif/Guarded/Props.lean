import Verif.Guarded.Inv
/-! C34, C50: the properties of the guarded page allocator. -/
namespace Verif.Guarded
open Verif.Bitmap (bitAt WF)

variable {c : Cfg} {s : S} {L : List Obj}

/-- **C34**: no slot has two owners, every slot is inside the region, and the number in use never exceeds the limit. -/
theorem slots_exclusive (h : c.OK) (hr : Reach c s L) :
    (owners s L).Nodup ∧ (∀ j ∈ owners s L, j < c.total) ∧ (owners s L).length = s.allocated ∧
      s.allocated ≤ s.high ∧ s.high ≤ c.limit := by
  have I := hr.inv h
  exact ⟨I.nodup, fun j hj => I.tot j ((I.mem_iff j).1 hj), I.len.symm, I.high, I.lim⟩

/-- **C34**: no call of a correct program fails an assertion or is reported as an error; a reservation is refused only
at the limit and otherwise yields a slot nobody uses; the object is placed as promised. -/
theorem calls_succeed (h : c.OK) (hr : Reach c s L) {e : Ev} (hp : Pre c s L e) :
    ∃ s' o, step c s e = some (s', o) ∧ Expected c s L e o := by
  obtain ⟨s', o, a, -, b⟩ := (hr.inv h).step_ok h hp
  exact ⟨s', o, a, b⟩

/-- **C34**: every object in use lies inside its slot's page and is aligned; different objects are on different pages. -/
theorem objects_placed (h : c.OK) (hr : Reach c s L) :
    (∀ o ∈ L, Placed c o) ∧
    L.Pairwise fun o o' => o.ptr + o.size ≤ o'.ptr ∨ o'.ptr + o'.size ≤ o.ptr := by
  have I := hr.inv h
  refine ⟨fun o ho => (I.live o ho).1, ?_⟩
  have hn := I.nodup
  have hn2 : (L.map Obj.slot).Nodup := by
    unfold owners at hn
    exact (List.nodup_append.1 (List.nodup_append.1 (List.nodup_append.1 hn).1).1).2.1
  rw [List.Nodup, List.pairwise_map] at hn2
  refine hn2.imp_of_mem fun {o o'} ho ho' hne => ?_
  have p := (I.live o ho).1
  have p' := (I.live o' ho').1
  have := p.lo; have := p.hi; have := p'.lo; have := p'.hi
  rcases Nat.lt_or_gt_of_ne hne with hlt | hlt
  · have := page_apart (c := c) hlt; omega
  · have := page_apart (c := c) hlt; omega

/-- The byte at `a` can be accessed only if `a` is on the page of an object in use or just being freed: guard pages,
unused slots and freed objects are inaccessible. -/
theorem access_exact (h : c.OK) (hr : Reach c s L) (a : Nat) :
    accessible c s a = true ↔
      (∃ o ∈ L, 0 < o.size ∧ c.On o.slot a) ∨ ∃ x ∈ s.frees, c.On x.1 a ∧ 0 < (s.data x.1).size := by
  have I := hr.inv h
  unfold accessible
  constructor
  · intro ha
    split at ha
    · rename_i slot hs
      obtain ⟨h1, h2⟩ := on_of_slot h hs
      by_cases hL : slot ∈ L.map Obj.slot
      · obtain ⟨o, ho, rfl⟩ := List.mem_map.1 hL
        have := (I.live o ho).2.2.1
        rw [ha] at this
        exact Or.inl ⟨o, ho, by simpa using this.symm, h2⟩
      · by_cases hF : slot ∈ s.frees.map Prod.fst
        · obtain ⟨x, hx, rfl⟩ := List.mem_map.1 hF
          obtain ⟨o, b1, b2, b3, b4, b5, b6⟩ := I.freeing x hx
          rw [b1] at b4 b5
          rw [ha] at b5
          exact Or.inr ⟨x, hx, h2, by rw [b4]; simpa using b5.symm⟩
        · rw [I.closed slot hL hF] at ha; cases ha
    · cases ha
  · rintro (⟨o, ho, h1, h2⟩ | ⟨x, hx, h1, h2⟩)
    · obtain ⟨a1, a2, a3, a4⟩ := I.live o ho
      rw [slot_on h a1.slot h2]
      dsimp only
      rw [a3]
      simpa using h1
    · obtain ⟨o, b1, b2, b3, b4, b5, b6⟩ := I.freeing x hx
      rw [← b1] at h1 h2
      rw [slot_on h b3.slot h1]
      dsimp only
      rw [b5]
      rw [b4] at h2
      simpa using h2

/-- An access to a guard page faults. -/
theorem guards_fault (h : c.OK) {a : Nat} (ha : ∀ j, j < c.total → ¬ c.On j a) (b : Nat) :
    store c s a b = (s, .fault) := by
  unfold store
  rw [if_neg]
  intro hacc
  unfold accessible at hacc
  split at hacc
  · rename_i slot hs
    obtain ⟨h1, h2⟩ := on_of_slot h hs
    exact ha slot h1 h2
  · cases hacc

theorem Placed.ptr_pos (h : c.OK) {o : Obj} (hp : Placed c o) : 0 < o.ptr := by
  have h1 := hp.lo
  have := h.base0
  unfold Cfg.page at h1
  omega

/-- An address in the page before or behind an object page is on no object page. -/
theorem off_page {j a : Nat} (h : (c.page j ≤ a + c.ps ∧ a < c.page j) ∨ (c.page j + c.ps ≤ a ∧ a < c.page j + 2 * c.ps)) (t : Nat) :
    ¬ c.On t a := by
  rintro ⟨h1, h2⟩
  rcases Nat.lt_trichotomy j t with hlt | rfl | hlt
  · have := page_apart (c := c) hlt; omega
  · omega
  · have := page_apart (c := c) hlt; omega

/-- The byte before an object in an odd slot, and the byte behind an object in an even slot whose size is a multiple of
its alignment, are on guard pages; in an even slot a guard page begins less than the alignment behind the object. -/
theorem guard_adjacent (h : c.OK) (hr : Reach c s L) {o : Obj} (ho : o ∈ L) (b : Nat) :
    (o.slot % 2 = 1 → store c s (o.ptr - 1) b = (s, .fault)) ∧
    (o.slot % 2 = 0 → 0 < o.size → o.size % effAlign o.size o.al = 0 → store c s (o.ptr + o.size) b = (s, .fault)) ∧
    (o.slot % 2 = 0 → 0 < o.size → ∃ a, o.ptr + o.size ≤ a ∧ a < o.ptr + o.size + effAlign o.size o.al ∧
      store c s a b = (s, .fault)) := by
  have p := ((hr.inv h).live o ho).1
  have h0 := h.ps_pos
  have hpos : c.ps ≤ c.page o.slot := by unfold Cfg.page; rw [Nat.add_mul]; omega
  have hhi := p.hi
  refine ⟨fun hodd => ?_, fun hev hsz hm => ?_, fun hev hsz => ?_⟩
  · have := p.left (Or.inl hodd)
    exact guards_fault h (fun j _ => off_page (j := o.slot) (Or.inl (by omega)) j) b
  · have hr := p.right hev hsz
    obtain ⟨e1, e2, -, -⟩ := effAlign_dvd (size := o.size) h p.al_ok.1 p.al_ok.2
    have hptr : effAlign o.size o.al ∣ o.ptr := by
      unfold effAlign
      by_cases hle : o.al ≤ min (bitCeil o.size) newAlign
      · rw [Nat.max_eq_right hle]; exact Nat.dvd_of_mod_eq_zero p.default
      · rw [Nat.max_eq_left (by omega)]
        rcases p.aligned with e | e
        · omega
        · exact Nat.dvd_of_mod_eq_zero e
    have hpage : effAlign o.size o.al ∣ c.page o.slot + c.ps := by
      rw [page_eq h]
      exact Nat.dvd_add (Nat.dvd_trans e2 (Nat.dvd_mul_right _ _)) e2
    have hgap := Nat.dvd_sub hpage (Nat.dvd_add hptr (Nat.dvd_of_mod_eq_zero hm))
    have := Nat.eq_zero_of_dvd_of_lt hgap hr
    exact guards_fault h (fun j _ => off_page (j := o.slot) (Or.inr (by omega)) j) b
  · have hr := p.right hev hsz
    exact ⟨c.page o.slot + c.ps, hhi, by omega, guards_fault h (fun j _ => off_page (j := o.slot) (Or.inr (by omega)) j) b⟩

/-- **C34**: for every address of the region a slot is found, and no slot's page is nearer to the address. -/
theorem nearest_slot (h : c.OK) {a : Nat} (h1 : c.base ≤ a) (h2 : a < c.base + (2 * c.total + 1) * c.ps) :
    ∃ slot, c.nearestSlot a = some slot ∧ slot < c.total ∧ ∀ t, t < c.total → c.dist a slot ≤ c.dist a t :=
  nearest_spec h ((mine_iff h a).2 ⟨h1, h2⟩)

/-- An address within half a page of a slot's page belongs to that slot. -/
theorem nearest_unique (h : c.OK) {a j : Nat} (hj : j < c.total) (ha : c.mine a = true)
    (hlo : c.page j ≤ a + c.ps / 2) (hhi : a < c.page j + c.ps + c.ps / 2) : c.nearestSlot a = some j := by
  obtain ⟨s, e1, e2, e3⟩ := nearest_spec h ha
  have h0 := h.ps_pos
  have := e3 j hj
  unfold Cfg.dist at this
  rcases Nat.lt_trichotomy j s with hlt | rfl | hlt
  · have := page_apart (c := c) hlt; omega
  · exact e1
  · have := page_apart (c := c) hlt; omega

theorem near_mine (h : c.OK) {a j : Nat} (hj : j < c.total) (hlo : c.page j ≤ a + c.ps / 2)
    (hhi : a < c.page j + c.ps + c.ps / 2) : c.mine a = true := by
  rw [mine_iff h]
  unfold Cfg.page at hlo hhi
  have h0 := h.ps_pos
  have := Nat.mul_le_mul_right c.ps (show 2 * j + 1 + 2 ≤ 2 * c.total + 1 by omega)
  rw [Nat.add_mul (2 * j + 1)] at this
  rw [Nat.add_mul] at hlo
  omega

/-- **C50**: a bad access within half a page of an object in use is attributed to that object, and told apart as an
underflow or an overflow. -/
theorem report_live (h : c.OK) (hr : Reach c s L) {o : Obj} (ho : o ∈ L) {a : Nat}
    (hlo : c.page o.slot ≤ a + c.ps / 2) (hhi : a < c.page o.slot + c.ps + c.ps / 2) :
    (a < o.ptr → report c s a = some (o.slot, .underflow)) ∧
    (o.ptr + o.size ≤ a → report c s a = some (o.slot, .overflow)) := by
  obtain ⟨a1, a2, -, -⟩ := (hr.inv h).live o ho
  have hm := near_mine h a1.slot hlo hhi
  have hn := nearest_unique h a1.slot hm hlo hhi
  have hpos := a1.ptr_pos h
  unfold report
  rw [if_pos hm, hn]
  dsimp only
  rw [a2]
  unfold errorType
  dsimp only
  rw [if_neg (by omega), if_neg (by omega), if_neg (by simp), if_neg (by omega)]
  refine ⟨fun h1 => by rw [if_pos h1], fun h1 => by rw [if_neg (by omega), if_pos h1]⟩

/-- **C50**: a bad access near a slot whose last object was freed is reported as a use after free of that object. -/
theorem report_freed (h : c.OK) (hr : Reach c s L) {j : Nat} (hj : j ∉ L.map Obj.slot) (hused : (s.data j).start ≠ 0) {a : Nat}
    (hjt : j < c.total) (hlo : c.page j ≤ a + c.ps / 2) (hhi : a < c.page j + c.ps + c.ps / 2) :
    report c s a = some (j, .useAfterFree) := by
  have hm := near_mine h hjt hlo hhi
  have hn := nearest_unique h hjt hm hlo hhi
  unfold report
  rw [if_pos hm, hn]
  dsimp only
  rcases (hr.inv h).idle j hj with e | ⟨o, -, -, e⟩
  · rw [e] at hused; exact absurd rfl hused
  · rw [e] at hused ⊢
    unfold errorType
    dsimp only at hused ⊢
    rw [if_neg hused]
    simp

/-- **C34**: the requested size of an object in use is known, also from an address inside it; the exact address is
recognized, every other address on its page refused. -/
theorem size_known (h : c.OK) (hr : Reach c s L) {o : Obj} (ho : o ∈ L) {a : Nat} (ha : c.On o.slot a) :
    requestedSize c s a = some o.size ∧ correctlyAligned c s a = some (decide (o.ptr = a)) := by
  obtain ⟨a1, a2, -, -⟩ := (hr.inv h).live o ho
  have hm := mine_on h a1.slot ha
  have hn := nearest_unique h a1.slot hm (by have := ha.1; omega) (by have := ha.2; omega)
  refine ⟨?_, ?_⟩
  · unfold requestedSize
    rw [if_pos hm, slot_on h a1.slot ha]
    simp [a2]
  · unfold correctlyAligned
    rw [hn]
    simp [a2]

/-- **C50**: whatever the program wrote, freeing an object reports an overflow exactly if a checked byte behind it does
not have the value it was given; otherwise the call goes on. -/
theorem overflow_detected (h : c.OK) (hr : Reach c s L) {o : Obj} (ho : o ∈ L) (m : Nat → Nat) :
    ∃ s1 s2 out, dealloc c { s with mem := m } o.ptr = some (s1, .cont) ∧ protect c s1 s.frees.length = some (s2, out) ∧
      ((∃ a, Window c o a ∧ m a ≠ magic o.slot) → out = .overflow) ∧
      ((∀ a, Window c o a → m a = magic o.slot) → out = .cont) := by
  obtain ⟨a1, a2, -, -⟩ := (hr.inv h).live o ho
  have hon : c.On o.slot o.ptr := a1.on (a1.ptr_lt h)
  have hd : ∃ s1, dealloc c { s with mem := m } o.ptr = some (s1, .cont) ∧ s1.frees = s.frees ++ [(o.slot, o.ptr)] ∧
      s1.data o.slot = ⟨o.size, o.ptr, 1, false⟩ ∧ s1.mem = m := by
    unfold dealloc
    rw [if_pos (mine_on h a1.slot hon), slot_on h a1.slot hon]
    dsimp only
    rw [a2]
    simp only [ne_eq, not_true_eq_false, if_false]
    exact ⟨_, rfl, rfl, upd_same .., rfl⟩
  obtain ⟨s1, hd, e1, e2, e3⟩ := hd
  have e1 : s1.frees[s.frees.length]? = some (o.slot, o.ptr) := by rw [e1]; simp
  by_cases h0 : o.size = 0
  · have hp : ∃ s2, protect c s1 s.frees.length = some (s2, .cont) := by
      unfold protect
      rw [e1]
      dsimp only
      rw [slotAddr_eq h a1.slot]
      dsimp only
      rw [e2]
      dsimp only
      rw [h0]
      simp only [Nat.lt_irrefl, gt_iff_lt, decide_false, Bool.false_and, Bool.or_self, Bool.false_eq_true, and_false, if_false, ne_eq,
        not_true_eq_false]
      exact ⟨_, rfl⟩
    obtain ⟨s2, hp⟩ := hp
    refine ⟨s1, s2, .cont, hd, hp, ?_, fun _ => rfl⟩
    rintro ⟨a, hw, -⟩
    have := hw.2.1
    omega
  · have h0' : 0 < o.size := by omega
    have hov := overflowed_iff (c := c) e2 h0' a1
    rw [e3] at hov
    have hp : ∃ s2, protect c s1 s.frees.length = some (s2, if overflowed c s1 o.slot (c.page o.slot) then .overflow else .cont) := by
      unfold protect
      rw [e1]
      dsimp only
      rw [slotAddr_eq h a1.slot]
      dsimp only
      rw [e2]
      dsimp only
      cases overflowed c s1 o.slot (c.page o.slot) <;> simp [h0']
    obtain ⟨s2, hp⟩ := hp
    refine ⟨s1, s2, _, hd, hp, fun hx => by rw [if_pos (hov.2 hx)], fun hx => ?_⟩
    rw [if_neg]
    intro e
    obtain ⟨a, hw, hne⟩ := hov.1 e
    exact hne (hx a hw)

/-- **C50**: freeing an address on an object's page other than the object's is reported. -/
theorem wrong_address_reported (h : c.OK) (hr : Reach c s L) {o : Obj} (ho : o ∈ L) {q : Nat} (hq : c.On o.slot q) (hne : q ≠ o.ptr) :
    ∃ s1 s2, dealloc c s q = some (s1, .cont) ∧ protect c s1 s.frees.length = some (s2, .corrupted) := by
  obtain ⟨a1, a2, a3, a4⟩ := (hr.inv h).live o ho
  have hd : dealloc c s q = some ({ s with
      data := upd s.data o.slot ⟨o.size, o.ptr, 1, false⟩, frees := s.frees ++ [(o.slot, q)] }, .cont) := by
    unfold dealloc
    rw [if_pos (mine_on h a1.slot hq), slot_on h a1.slot hq]
    dsimp only
    rw [a2]
    simp
  generalize hs1 : ({ s with data := upd s.data o.slot ⟨o.size, o.ptr, 1, false⟩, frees := s.frees ++ [(o.slot, q)] } : S) = s1 at hd
  have e1 : s1.frees[s.frees.length]? = some (o.slot, q) := by rw [← hs1]; simp
  have e2 : s1.data o.slot = ⟨o.size, o.ptr, 1, false⟩ := by rw [← hs1]; exact upd_same ..
  have e3 : s1.mem = s.mem := by rw [← hs1]
  have hover : (decide (0 < o.size) && overflowed c s1 o.slot (c.page o.slot)) = false := by
    by_cases h0 : 0 < o.size
    · cases hb : overflowed c s1 o.slot (c.page o.slot) with
      | false => simp
      | true =>
        obtain ⟨a, hw, hm⟩ := (overflowed_iff e2 h0 a1).1 hb
        rw [e3] at hm
        exact absurd (a4 a hw) hm
    · simp [h0]
  suffices hp : ∃ s2, protect c s1 s.frees.length = some (s2, .corrupted) from
    hp.elim fun s2 hp => ⟨s1, s2, hd, hp⟩
  unfold protect
  rw [e1]
  dsimp only
  rw [slotAddr_eq h a1.slot]
  dsimp only
  rw [e2]
  dsimp only
  rw [hover]
  simp only [Bool.false_eq_true, and_false, if_false, Bool.or_self]
  rw [if_pos (Ne.symm hne)]
  exact ⟨_, rfl⟩

/-! ### Double free -/

theorem reserve_data {size al r : Nat} {s' : S} {x} (h : reserve c s size al r = some (s', x)) : s'.data = s.data := by
  unfold reserve at h
  repeat' split at h
  all_goals first | (cases h; done) | (cases h; rfl)

theorem freeSlot_data {slot : Nat} {s' : S} (h : freeSlot c s slot = some s') : s'.data = s.data := by
  unfold freeSlot at h
  repeat' split at h
  all_goals first | (cases h; done) | (cases h; rfl)

/-- A slot that was used keeps the address of its last object. -/
theorem start_kept (h : c.OK) (I : Inv c s L) {e : Ev} {s' : S} {o : Out} (hp : Pre c s L e) (hs : step c s e = some (s', o)) {j : Nat}
    (hj : (s.data j).start ≠ 0) : (s'.data j).start ≠ 0 := by
  cases e with
  | reserve size al r =>
    simp only [step, Option.map_eq_some_iff] at hs
    obtain ⟨x, hx, he⟩ := hs
    cases he
    rw [reserve_data (x := x.2) (by rw [hx])]
    exact hj
  | allocate i ok =>
    have hg : s.allocs[i]? = some s.allocs[i] := List.getElem?_eq_getElem hp
    generalize s.allocs[i] = x at hg
    obtain ⟨slot, size, al⟩ := x
    obtain ⟨s1, o1, e1, e2, e3⟩ := I.step_ok h hp
    rw [e1] at hs
    cases hs
    by_cases hjL : j ∈ (live' L s (.allocate i ok) o).map Obj.slot
    · obtain ⟨ob, hob, rfl⟩ := List.mem_map.1 hjL
      obtain ⟨a1, a2, -, -⟩ := e2.live ob hob
      rw [a2]
      exact Nat.ne_of_gt (a1.ptr_pos h)
    · -- not the slot allocated here: unchanged
      have hall : allocate c s i ok = some (s', o) := e1
      unfold allocate at hall
      rw [hg] at hall
      dsimp only at hall
      split at hall
      · split at hall
        · cases hall
        · rename_i page hpage
          by_cases hz : size = 0
          · rw [if_pos hz] at hall
            split at hall
            · cases hall
            · split at hall
              · cases hall
                simp only [live', hg, List.map_cons, List.mem_cons, not_or] at hjL
                dsimp only
                rw [upd_ne _ _ hjL.1]
                exact hj
              · cases hall
          · rw [if_neg hz] at hall
            cases ok with
            | true =>
              simp only [if_true] at hall
              split at hall
              · cases hall
              · split at hall
                · cases hall
                  simp only [live', hg, List.map_cons, List.mem_cons, not_or] at hjL
                  dsimp only
                  rw [upd_ne _ _ hjL.1]
                  exact hj
                · cases hall
            | false =>
              simp only [Bool.false_eq_true, if_false] at hall
              split at hall
              · cases hall
              · rename_i s2 hs2
                cases hall
                rw [freeSlot_data hs2]
                exact hj
      · cases hall
  | dealloc p =>
    have hall : dealloc c s p = some (s', o) := hs
    unfold dealloc at hall
    split at hall
    · split at hall
      · cases hall
      · rename_i slot _
        dsimp only at hall
        split at hall <;>
        · cases hall
          dsimp only
          by_cases ej : j = slot
          · subst ej; rw [upd_same]; exact hj
          · rw [upd_ne _ _ ej]; exact hj
    · cases hall
  | protect i =>
    have hall : protect c s i = some (s', o) := hs
    unfold protect at hall
    split at hall
    · cases hall
    · rename_i slot ptr _
      split at hall
      · cases hall
      · dsimp only at hall
        repeat' split at hall
        all_goals
          cases hall
          dsimp only
          by_cases ej : j = slot
          · subst ej; rw [upd_same]; exact hj
          · rw [upd_ne _ _ ej]; exact hj
  | giveBack i =>
    have hall : giveBack c s i = some (s', o) := hs
    unfold giveBack at hall
    split at hall
    · cases hall
    · split at hall
      · cases hall
      · rename_i s2 hs2
        cases hall
        rw [freeSlot_data hs2]
        exact hj
  | store a b =>
    have hall : store c s a b = (s', o) := Option.some.inj hs
    unfold store at hall
    split at hall <;> (cases hall; exact hj)

theorem Run.reach (hr : Reach c s L) {s' : S} {L' : List Obj} (h : Run c s L s' L') : Reach c s' L' := by
  induction h with
  | refl => exact hr
  | step _ hp hs ih => exact Reach.step ih hp hs

theorem Run.start (h : c.OK) (hr : Reach c s L) {s' : S} {L' : List Obj} (hR : Run c s L s' L') {j : Nat}
    (hj : (s.data j).start ≠ 0) : (s'.data j).start ≠ 0 := by
  induction hR with
  | refl => exact hj
  | step hR hp hs ih => exact start_kept h ((Run.reach hr hR).inv h) hp hs ih

/-- **C50**: once an object was freed, freeing its address, or any address on its page, again is reported as a double free,
whatever happened in between, unless the slot has a new object. -/
theorem double_free_reported (h : c.OK) (hr : Reach c s L) {o : Obj} (ho : o ∈ L) {s' : S} {L' : List Obj}
    (hR : Run c s L s' L') (hno : o.slot ∉ L'.map Obj.slot) {q : Nat} (hq : c.On o.slot q) :
    ∃ s2, dealloc c s' q = some (s2, .doubleFree) := by
  obtain ⟨a1, a2, -, -⟩ := (hr.inv h).live o ho
  have hpos : o.ptr ≠ 0 := Nat.ne_of_gt (a1.ptr_pos h)
  have hst := Run.start h hr hR (j := o.slot) (by rw [a2]; exact hpos)
  have I' := (Run.reach hr hR).inv h
  unfold dealloc
  rw [if_pos (mine_on h a1.slot hq), slot_on h a1.slot hq]
  dsimp only
  rcases I'.idle o.slot hno with e | ⟨o', -, -, e⟩
  · rw [e] at hst; exact absurd rfl hst
  · rw [e]
    exact ⟨_, rfl⟩

/-- **C50**: an access to a freed object's page faults and is reported as a use after free, once its deallocation has
protected the page and as long as the slot has no new object. -/
theorem use_after_free_reported (h : c.OK) (hr : Reach c s L) {o : Obj} (ho : o ∈ L) {s' : S} {L' : List Obj}
    (hR : Run c s L s' L') (hno : o.slot ∉ L'.map Obj.slot) (hnf : o.slot ∉ s'.frees.map Prod.fst) {q : Nat} (hq : c.On o.slot q)
    (b : Nat) : store c s' q b = (s', .fault) ∧ report c s' q = some (o.slot, .useAfterFree) := by
  obtain ⟨a1, a2, -, -⟩ := (hr.inv h).live o ho
  have hpos : o.ptr ≠ 0 := Nat.ne_of_gt (a1.ptr_pos h)
  have hst := Run.start h hr hR (j := o.slot) (by rw [a2]; exact hpos)
  have I' := (Run.reach hr hR).inv h
  refine ⟨?_, report_freed h (Run.reach hr hR) hno hst a1.slot (by have := hq.1; omega) (by have := hq.2; omega)⟩
  have hacc : accessible c s' q = false := by
    unfold accessible
    rw [slot_on h a1.slot hq]
    exact I'.closed _ hno hnf
  unfold store
  rw [hacc]
  rfl

/-! ### Which sampled allocations are guarded -/

/-- **C51**: an allocation is tried only if it is at most one page and guarding is on; then either no rate applies, or the
guarded allocations so far are at most the configured share of the sampled ones. -/
theorem guarded_rate {numPages : Nat} {interval profile : Int} {guarded sampled allocated limit r : Nat} {covered : Bool}
    (hp : 0 ≤ profile) (h : verdict numPages interval profile guarded sampled allocated limit r covered = .tryIt) :
    numPages ≤ 1 ∧ 0 ≤ interval ∧ (0 < interval → interval * guarded ≤ sampled * profile ) := by
  unfold verdict at h
  split at h
  · cases h
  split at h
  · cases h
  refine ⟨by omega, by omega, fun hi => ?_⟩
  by_cases hg : guarded = 0
  · subst hg
    have := Int.mul_nonneg (Int.natCast_nonneg sampled) hp
    simpa using this
  rw [if_pos ⟨hi, by omega⟩] at h
  split at h
  · cases h
  · rename_i hle
    generalize hk : sampled * 10 / guarded = k at hle
    have hk2 : k * guarded ≤ sampled * 10 := by rw [← hk]; exact Nat.div_mul_le_self _ _
    have h1 : interval * 10 * guarded ≤ k * profile * guarded :=
      Int.mul_le_mul_of_nonneg_right (by omega) (Int.natCast_nonneg _)
    have h2 : (k : Int) * profile * guarded ≤ (sampled * 10 : Nat) * profile := by
      rw [Int.mul_right_comm]
      exact Int.mul_le_mul_of_nonneg_right (by exact_mod_cast hk2) hp
    have h3 : interval * 10 * guarded = 10 * (interval * guarded) := by
      rw [Int.mul_comm interval 10, Int.mul_assoc]
    have h4 : ((sampled * 10 : Nat) : Int) * profile = 10 * (sampled * profile) := by
      rw [Int.natCast_mul, Int.mul_comm (sampled : Int), Int.mul_assoc]; rfl
    omega

/-- **C51**: guarding that is switched off guards nothing; with interval 0 every small enough allocation is tried; and an
allocation with a new stack trace is tried whenever the rate permits. -/
theorem guarded_choice {numPages : Nat} {interval profile : Int} {guarded sampled allocated limit r : Nat} {covered : Bool} :
    (interval < 0 → verdict numPages interval profile guarded sampled allocated limit r covered ≠ .tryIt) ∧
    (interval = 0 → numPages ≤ 1 → verdict numPages interval profile guarded sampled allocated limit r covered = .tryIt) ∧
    (0 ≤ interval → numPages ≤ 1 → covered = false → (guarded = 0 ∨ interval * 10 ≤ (sampled * 10 / guarded : Nat) * profile) →
      verdict numPages interval profile guarded sampled allocated limit r covered = .tryIt) ∧
    (verdict numPages interval profile guarded sampled allocated limit r covered = .filtered → covered = true) := by
  unfold verdict
  refine ⟨fun h => ?_, fun h h1 => ?_, fun h h1 h2 h3 => ?_, fun h => ?_⟩
  · split
    · simp
    · simp
  · rw [if_neg (by omega), if_neg (by omega), if_neg (by omega)]
  · rw [if_neg (by omega), if_neg (by omega)]
    split
    · rename_i hc
      rcases h3 with h3 | h3
      · omega
      · rw [if_neg (by omega), if_neg (by simp [h2])]
    · rfl
  · repeat' split at h
    all_goals first | (cases h; done) | skip
    rename_i hc
    exact hc.1

end Verif.Guarded
