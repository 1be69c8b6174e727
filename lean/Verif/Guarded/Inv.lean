import Verif.Guarded.Lemmas
/-! The invariant of the guarded page allocator. -/
namespace Verif.Guarded
open Verif.Bitmap (bitAt WF)

structure Inv (c : Cfg) (s : S) (L : List Obj) : Prop where
  wf : WF maxPages s.used
  cnt : ∀ j, (owners s L).count j = if bitAt s.used j = true then 1 else 0
  tot : ∀ j, bitAt s.used j = true → j < c.total
  len : s.allocated = (owners s L).length
  high : s.allocated ≤ s.high
  lim : s.high ≤ c.limit
  asked : ∀ x ∈ s.allocs, x.2.1 ≤ c.ps ∧ x.2.2 ≤ c.ps ∧ (x.2.2 = 0 ∨ ∃ k, x.2.2 = 2 ^ k)
  live : ∀ o ∈ L, Placed c o ∧ s.data o.slot = ⟨o.size, o.ptr, 0, false⟩ ∧ s.acc o.slot = decide (0 < o.size) ∧
    ∀ a, Window c o a → s.mem a = magic o.slot
  freeing : ∀ x ∈ s.frees, ∃ o : Obj, o.slot = x.1 ∧ o.ptr = x.2 ∧ Placed c o ∧ s.data o.slot = ⟨o.size, o.ptr, 1, false⟩ ∧
    s.acc o.slot = decide (0 < o.size) ∧ ∀ a, Window c o a → s.mem a = magic o.slot
  closed : ∀ j, j ∉ L.map Obj.slot → j ∉ s.frees.map Prod.fst → s.acc j = false
  idle : ∀ j, j ∉ L.map Obj.slot → s.data j = ⟨0, 0, 0, false⟩ ∨
    ∃ o : Obj, o.slot = j ∧ Placed c o ∧ s.data j = ⟨o.size, o.ptr, 1, false⟩

theorem owners_count (s : S) (L : List Obj) (j : Nat) : (owners s L).count j =
    (s.allocs.map Prod.fst).count j + (L.map Obj.slot).count j + (s.frees.map Prod.fst).count j + s.backs.count j := by
  simp only [owners, List.count_append]

theorem owners_length (s : S) (L : List Obj) : (owners s L).length =
    s.allocs.length + L.length + s.frees.length + s.backs.length := by
  simp only [owners, List.length_append, List.length_map]

theorem erase_perm {α : Type} {x : α} : ∀ {l : List α} {i : Nat}, l[i]? = some x → (x :: l.eraseIdx i).Perm l
  | [], i, h => by simp at h
  | a :: l, 0, h => by
    simp only [List.getElem?_cons_zero, Option.some.injEq] at h
    rw [h]; exact List.Perm.refl _
  | a :: l, i + 1, h => by
    simp only [List.getElem?_cons_succ] at h
    rw [List.eraseIdx_cons_succ]
    exact (List.Perm.swap a x _).trans ((erase_perm h).cons a)

theorem count_erase {α : Type} (f : α → Nat) {l : List α} {i : Nat} {x : α} (h : l[i]? = some x) (j : Nat) :
    (l.map f).count j = ((l.eraseIdx i).map f).count j + if f x = j then 1 else 0 := by
  have := ((erase_perm h).map f).count_eq j
  rw [← this, List.map_cons, List.count_cons]
  simp only [beq_iff_eq]

theorem length_erase {α : Type} {l : List α} {i : Nat} {x : α} (h : l[i]? = some x) :
    l.length = (l.eraseIdx i).length + 1 := by
  rw [← (erase_perm h).length_eq]; rfl

variable {c : Cfg} {s : S} {L : List Obj}

theorem Inv.mem_iff (I : Inv c s L) (j : Nat) : j ∈ owners s L ↔ bitAt s.used j = true := by
  rw [← List.count_pos_iff, I.cnt]
  split <;> simp_all

theorem Inv.nodup (I : Inv c s L) : (owners s L).Nodup := by
  rw [List.nodup_iff_count]
  intro j
  rw [I.cnt]
  split <;> omega

theorem Inv.init (mem : Nat → Nat) : Inv c (S.init mem) [] where
  wf := Bitmap.wf_empty _
  cnt := by intro j; simp [owners, S.init, Bitmap.bitAt_empty]
  tot := by intro j hj; simp [S.init, Bitmap.bitAt_empty] at hj
  len := rfl
  high := Nat.le_refl _
  lim := Nat.zero_le _
  asked := by intro x hx; cases hx
  live := by intro x hx; cases hx
  freeing := by intro x hx; cases hx
  closed := fun _ _ _ => rfl
  idle := fun _ _ => Or.inl rfl

theorem Inv.free_slot (h : c.OK) (I : Inv c s L) (hlt : s.allocated < c.limit) (r : Nat) :
    ∃ slot, getFreeSlot c s r = some slot ∧ slot < c.total ∧ bitAt s.used slot = false := by
  have ht := h.total_pos
  have h512 := h.total
  have hidx : r % c.total < c.total := Nat.mod_lt _ ht
  unfold getFreeSlot
  dsimp only
  obtain ⟨x, e1, e2, e3, e4, e5⟩ := Bitmap.find_last false maxPages s.used I.wf (r % c.total) (by omega)
  obtain ⟨y, f1, f2, f3, f4, f5⟩ := Bitmap.find_first false maxPages s.used I.wf (r % c.total) (by omega)
  rw [e1]
  dsimp only
  by_cases hx : 0 ≤ x
  · rw [if_pos hx]
    exact ⟨_, rfl, by omega, e5 hx⟩
  · rw [if_neg hx, f1]
    dsimp only
    by_cases hy : y < c.total
    · rw [if_pos hy]
      exact ⟨_, rfl, hy, f5 (by omega)⟩
    · exfalso
      have hall : ∀ j, j < c.total → j ∈ owners s L := by
        intro j hj
        rw [I.mem_iff]
        by_cases hle : j ≤ r % c.total
        · have := e4 j (by omega) hle
          simpa using this
        · have := f4 j (by omega) (by omega)
          simpa using this
      have := Verif.nodup_subset_length (live := owners s L) (batch := List.range c.total) List.nodup_range
        (fun j hj => hall j (List.mem_range.1 hj))
      rw [List.length_range, ← I.len] at this
      have := h.limit_total
      omega

theorem Inv.reserve_ok (h : c.OK) (I : Inv c s L) {size al : Nat} (hp : Pre c s L (.reserve size al r)) :
    (s.allocated = c.limit ∧ reserve c s size al r = some (s, none)) ∨
    (s.allocated < c.limit ∧ ∃ s' slot, reserve c s size al r = some (s', some slot) ∧ Inv c s' L ∧ slot < c.total ∧
      slot ∉ owners s L ∧ s'.allocs = s.allocs ++ [(slot, size, al)] ∧ s'.allocated = s.allocated + 1 ∧ s'.mem = s.mem) := by
  have hl := I.lim
  have hh := I.high
  unfold reserve
  rw [if_neg (by omega)]
  by_cases hz : c.limit - s.allocated = 0
  · rw [if_pos hz]; exact Or.inl ⟨by omega, rfl⟩
  rw [if_neg hz]
  refine Or.inr ⟨by omega, ?_⟩
  obtain ⟨slot, e1, e2, e3⟩ := I.free_slot h (by omega) r
  have h512 := h.total
  obtain ⟨g1, ⟨ws, g2, g3, g4⟩, -⟩ := Bitmap.single_bit_exact maxPages s.used I.wf slot (by omega)
  rw [e1]
  dsimp only
  rw [g1, g2, e3]
  dsimp only
  have hno : slot ∉ owners s L := by rw [I.mem_iff, e3]; simp
  refine ⟨_, slot, rfl, ?_, e2, hno, rfl, rfl, rfl⟩
  have h0 : (owners s L).count slot = 0 := List.count_eq_zero.2 hno
  rw [owners_count] at h0
  exact
    { wf := g3
      cnt := by
        intro j
        have hj := I.cnt j
        rw [owners_count] at hj ⊢
        dsimp only
        rw [List.map_append, List.count_append, g4]
        simp only [List.map_cons, List.map_nil, List.count_singleton, beq_iff_eq]
        by_cases ej : j = slot
        · subst ej
          simp only [if_true]
          omega
        · rw [if_neg ej, if_neg (Ne.symm ej)]
          omega
      tot := by
        intro j hj
        dsimp only at hj
        rw [g4] at hj
        split at hj
        · rename_i e; rw [e]; exact e2
        · exact I.tot j hj
      len := by
        have := I.len
        rw [owners_length] at this ⊢
        simp only [List.length_append, List.length_singleton]
        omega
      high := by dsimp only; omega
      lim := by dsimp only; omega
      asked := by
        intro x hx
        rcases List.mem_append.1 hx with hx | hx
        · exact I.asked x hx
        · rw [List.mem_singleton.1 hx]; exact hp
      live := I.live
      freeing := I.freeing
      closed := I.closed
      idle := I.idle }

/-- Giving back a slot none of the remaining calls and objects owns. -/
theorem freeSlot_ok (h : c.OK) {slot : Nat} {s : S} (hwf : WF maxPages s.used) (hslot : bitAt s.used slot = true)
    (htot : ∀ j, bitAt s.used j = true → j < c.total)
    (hlen : 0 < s.allocated) :
    ∃ s', freeSlot c s slot = some s' ∧ WF maxPages s'.used ∧ (∀ j, bitAt s'.used j = if j = slot then false else bitAt s.used j) ∧
      s' = { s with used := s'.used, allocated := s.allocated - 1 } := by
  unfold freeSlot
  have := htot slot hslot
  have h512 := h.total
  obtain ⟨g1, -, ⟨ws, g2, g3, g4⟩⟩ := Bitmap.single_bit_exact maxPages s.used hwf slot (by omega)
  rw [if_pos ⟨this, hlen⟩, g1, g2, hslot]
  exact ⟨_, rfl, g3, g4, rfl⟩

theorem Inv.slots_nodup (I : Inv c s L) {o o' : Obj} (ho : o ∈ L) (ho' : o' ∈ L) (h : o.slot = o'.slot) : o = o' := by
  have hn := I.nodup
  have hn2 : (L.map Obj.slot).Nodup := by
    unfold owners at hn
    exact (List.nodup_append.1 (List.nodup_append.1 (List.nodup_append.1 hn).1).1).2.1
  rw [List.Nodup, List.pairwise_map] at hn2
  rcases Classical.em (o = o') with e | e
  · exact e
  · exact absurd h (Verif.pairwise_forall (fun a b h => Ne.symm h) hn2 ho ho' e)

theorem mem_slots {o : Obj} (ho : o ∈ L) : o.slot ∈ L.map Obj.slot := List.mem_map_of_mem ho

theorem mem_eraseIdx {α : Type} {l : List α} {i : Nat} {x : α} (h : x ∈ l.eraseIdx i) : x ∈ l :=
  List.mem_of_mem_eraseIdx h

theorem Window.on {o : Obj} {a : Nat} (hp : Placed c o) (h : Window c o a) : c.On o.slot a :=
  ⟨by have := hp.lo; have := h.2.2.1; omega, h.2.2.2.2⟩

theorem upd_same {α : Type} (f : Nat → α) (i : Nat) (x : α) : upd f i x i = x := by simp [upd]
theorem upd_ne {α : Type} (f : Nat → α) {i j : Nat} (x : α) (h : j ≠ i) : upd f i x j = f j := by simp [upd, h]

theorem Inv.allocate_ok (h : c.OK) (I : Inv c s L) {i : Nat} {ok : Bool} {slot size al : Nat}
    (hi : s.allocs[i]? = some (slot, size, al)) :
    (size ≠ 0 ∧ ok = false ∧ ∃ s', allocate c s i ok = some (s', .ptr none) ∧ Inv c s' L) ∨
    ((size = 0 ∨ ok = true) ∧ ∃ s' p, allocate c s i ok = some (s', .ptr (some p)) ∧
      Inv c s' (⟨p, slot, size, al⟩ :: L)) := by
  obtain ⟨q1, q2, q3⟩ := I.asked _ (List.mem_of_getElem? hi)
  dsimp only at q1 q2 q3
  have hc := fun j => I.cnt j
  have hce := fun j => count_erase Prod.fst hi j
  dsimp only at hce
  simp only [owners_count] at hc
  have hlen := I.len
  rw [owners_length] at hlen
  have hle := length_erase hi
  -- the slot belongs to this call only
  have hs := hc slot
  have hse := hce slot
  rw [if_pos rfl] at hse
  have hbit : bitAt s.used slot = true := by
    cases hb : bitAt s.used slot with
    | true => rfl
    | false => rw [hb] at hs; simp at hs; omega
  rw [hbit, if_pos rfl] at hs
  have hL : slot ∉ L.map Obj.slot := List.count_eq_zero.1 (by omega)
  have hF : slot ∉ s.frees.map Prod.fst := List.count_eq_zero.1 (by omega)
  have hst := I.tot slot hbit
  have hov : (s.data slot).overflow = false := by
    rcases I.idle slot hL with e | ⟨o, -, -, e⟩ <;> rw [e]
  unfold allocate
  rw [hi]
  dsimp only
  rw [if_pos ⟨q1, q2⟩, slotAddr_eq h hst]
  dsimp only
  -- the objects of the other slots
  have hother : ∀ o : Obj, Placed c o → o.slot ≠ slot → ∀ a, Window c o a → ¬ c.On slot a := by
    intro o hp hne a hw hon
    exact hne (on_unique (Window.on hp hw) hon)
  have fin : ∀ (o : Obj) (acc' : Nat → Bool) (mem' : Nat → Nat), o.slot = slot → Placed c o →
      acc' = upd s.acc slot (decide (0 < o.size)) → (∀ a, ¬ c.On slot a → mem' a = s.mem a) →
      (∀ a, Window c o a → mem' a = magic slot) →
      Inv c { s with allocs := s.allocs.eraseIdx i, data := upd s.data slot ⟨o.size, o.ptr, 0, false⟩, acc := acc', mem := mem' }
        (o :: L) := by
    intro o acc' mem' hos hpl hacc hmem hwin
    exact
      { wf := I.wf
        cnt := by
          intro j
          have := hc j
          have := hce j
          rw [owners_count]
          dsimp only
          rw [List.map_cons, List.count_cons, hos]
          simp only [beq_iff_eq]
          omega
        tot := I.tot
        len := by
          rw [owners_length]
          show s.allocated = _
          simp only [List.length_cons]
          omega
        high := I.high
        lim := I.lim
        asked := fun x hx => I.asked x (mem_eraseIdx hx)
        live := by
          intro x hx
          rcases List.mem_cons.1 hx with e | hx
          · subst e
            dsimp only
            rw [hacc, hos, upd_same, upd_same]
            exact ⟨hpl, rfl, rfl, hwin⟩
          · have hne : x.slot ≠ slot := fun e => hL (e ▸ mem_slots hx)
            obtain ⟨a1, a2, a3, a4⟩ := I.live x hx
            dsimp only
            rw [hacc, upd_ne _ _ hne, upd_ne _ _ hne]
            exact ⟨a1, a2, a3, fun a ha => by rw [hmem a (hother x a1 hne a ha)]; exact a4 a ha⟩
        freeing := by
          intro x hx
          obtain ⟨o', b1, b2, b3, b4, b5, b6⟩ := I.freeing x hx
          have hne : o'.slot ≠ slot := fun e => hF (by rw [← e, b1]; exact List.mem_map_of_mem hx)
          refine ⟨o', b1, b2, b3, ?_, ?_, ?_⟩
          · dsimp only; rw [upd_ne _ _ hne]; exact b4
          · dsimp only; rw [hacc, upd_ne _ _ hne]; exact b5
          · exact fun a ha => by dsimp only; rw [hmem a (hother o' b3 hne a ha)]; exact b6 a ha
        closed := by
          intro j hj1 hj2
          rw [List.map_cons, List.mem_cons, not_or, hos] at hj1
          dsimp only at hj2 ⊢
          rw [hacc, upd_ne _ _ hj1.1]
          exact I.closed j hj1.2 hj2
        idle := by
          intro j hj1
          rw [List.map_cons, List.mem_cons, not_or, hos] at hj1
          dsimp only
          rw [upd_ne _ _ hj1.1]
          exact I.idle j hj1.2 }
  by_cases hz : size = 0
  · refine Or.inr ⟨Or.inl hz, ?_⟩
    subst hz
    rw [if_pos rfl, hov]
    have hpl := zero_placed h hst q2 q3
    have hal := hpl.aligned
    dsimp only at hal
    rw [if_pos hal]
    simp only [Bool.false_eq_true, if_false]
    refine ⟨_, c.page slot, rfl, ?_⟩
    refine fin ⟨c.page slot, slot, 0, al⟩ s.acc s.mem rfl hpl ?_ (fun _ _ => rfl) (fun a ha => absurd ha.2.1 (Nat.lt_irrefl _))
    funext j
    by_cases ej : j = slot
    · subst ej; rw [upd_same]; exact I.closed j hL hF
    · rw [upd_ne _ _ ej]
  · rw [if_neg hz]
    cases ok with
    | true =>
      refine Or.inr ⟨Or.inr rfl, ?_⟩
      obtain ⟨r1, r2, r3⟩ := rightAlign_spec h hst q1 q2 q3
      generalize hr : rightAlign c slot (c.page slot) size al = r at r1 r2 r3
      obtain ⟨p, padding⟩ := r
      dsimp only at r1 r2 r3
      have hpl := r1 (by omega)
      have hal := hpl.aligned
      have hlo := hpl.lo
      dsimp only at hal hlo
      simp only [if_true, hov, Bool.false_eq_true, if_false]
      rw [if_pos hal]
      refine ⟨_, p, rfl, ?_⟩
      refine fin ⟨p, slot, size, al⟩ _ _ rfl hpl ?_ ?_ ?_
      · have : decide (0 < size) = true := by simp; omega
        show _ = upd s.acc slot (decide (0 < size))
        rw [this]
      · intro a ha
        unfold fill
        rw [if_neg]
        rintro ⟨g1, g2⟩
        apply ha
        by_cases hev : slot % 2 = 0
        · have := r2 hev; unfold Cfg.On; omega
        · have := r3 hev; omega
      · rintro a ⟨g1, g2, g3, g4, g5⟩
        dsimp only at g1 g2 g3 g4 g5
        have := r2 g1
        unfold fill
        rw [if_pos (by omega)]
    | false =>
      refine Or.inl ⟨hz, rfl, ?_⟩
      simp only [Bool.false_eq_true, if_false]
      obtain ⟨s', e1, e2, e3, e4⟩ := freeSlot_ok (c := c) h (slot := slot) (s := { s with allocs := s.allocs.eraseIdx i })
        I.wf hbit I.tot (by dsimp only; omega)
      rw [e1]
      refine ⟨s', rfl, ?_⟩
      rw [e4]
      exact
        { wf := e2
          cnt := by
            intro j
            have := hc j
            have := hce j
            rw [owners_count]
            dsimp only
            rw [e3]
            dsimp only
            by_cases ej : j = slot
            · subst ej; simp only [if_true] at *; simp; omega
            · rw [if_neg ej]; rw [if_neg (Ne.symm ej)] at this; omega
          tot := by
            intro j hj
            dsimp only at hj
            rw [e3] at hj
            split at hj
            · cases hj
            · exact I.tot j hj
          len := by rw [owners_length]; dsimp only; omega
          high := by have := I.high; dsimp only; omega
          lim := I.lim
          asked := fun x hx => I.asked x (mem_eraseIdx hx)
          live := I.live
          freeing := I.freeing
          closed := I.closed
          idle := I.idle }

theorem Inv.dealloc_ok (h : c.OK) (I : Inv c s L) {o : Obj} (ho : o ∈ L) :
    ∃ s', dealloc c s o.ptr = some (s', .cont) ∧ Inv c s' (L.erase o) ∧ s'.frees = s.frees ++ [(o.slot, o.ptr)] ∧
      s'.mem = s.mem := by
  obtain ⟨a1, a2, a3, a4⟩ := I.live o ho
  have hon : c.On o.slot o.ptr := a1.on (a1.ptr_lt h)
  unfold dealloc
  rw [if_pos (mine_on h a1.slot hon), slot_on h a1.slot hon]
  dsimp only
  rw [a2]
  simp only [ne_eq, not_true_eq_false, if_false]
  refine ⟨_, rfl, ?_, rfl, rfl⟩
  have hperm := List.perm_cons_erase ho
  have hcL : ∀ j, (L.map Obj.slot).count j = ((L.erase o).map Obj.slot).count j + if o.slot = j then 1 else 0 := by
    intro j
    rw [(hperm.map Obj.slot).count_eq j, List.map_cons, List.count_cons]
    simp only [beq_iff_eq]
  have hc := fun j => I.cnt j
  simp only [owners_count] at hc
  have hne : ∀ x ∈ L.erase o, x.slot ≠ o.slot := by
    intro x hx e
    have h1 := hcL o.slot
    have h2 := hc o.slot
    have h3 : 0 < ((L.erase o).map Obj.slot).count o.slot := List.count_pos_iff.2 (e ▸ mem_slots hx)
    rw [if_pos rfl] at h1
    split at h2 <;> omega
  have hneF : ∀ x ∈ s.frees, x.1 ≠ o.slot := by
    intro x hx e
    have h1 := hcL o.slot
    have h2 := hc o.slot
    have h3 : 0 < (s.frees.map Prod.fst).count o.slot := List.count_pos_iff.2 (e ▸ List.mem_map_of_mem hx)
    rw [if_pos rfl] at h1
    split at h2 <;> omega
  have hout : ∀ j, j ∉ (L.erase o).map Obj.slot → j ≠ o.slot → j ∉ L.map Obj.slot := by
    intro j h1 h2 h3
    have := hcL j
    rw [if_neg (Ne.symm h2), List.count_eq_zero.2 h1] at this
    have := List.count_pos_iff.2 h3
    omega
  exact
    { wf := I.wf
      cnt := by
        intro j
        have := hc j
        have := hcL j
        rw [owners_count]
        dsimp only
        rw [List.map_append, List.count_append]
        simp only [List.map_cons, List.map_nil, List.count_singleton, beq_iff_eq]
        omega
      tot := I.tot
      len := by
        have := I.len
        have := hperm.length_eq
        rw [owners_length] at *
        rw [List.length_cons] at this
        simp only [List.length_append, List.length_singleton]
        omega
      high := I.high
      lim := I.lim
      asked := I.asked
      live := by
        intro x hx
        dsimp only
        rw [upd_ne _ _ (hne x hx)]
        exact I.live x (List.mem_of_mem_erase hx)
      freeing := by
        intro x hx
        rcases List.mem_append.1 hx with hx | hx
        · obtain ⟨o', b1, b2, b3, b4, b5⟩ := I.freeing x hx
          refine ⟨o', b1, b2, b3, ?_, b5⟩
          dsimp only
          rw [upd_ne _ _ (by rw [b1]; exact hneF x hx)]
          exact b4
        · rw [List.mem_singleton.1 hx]
          exact ⟨o, rfl, rfl, a1, by dsimp only; rw [upd_same], a3, a4⟩
      closed := by
        intro j h1 h2
        rw [List.map_append, List.mem_append, not_or] at h2
        refine I.closed j (hout j h1 ?_) h2.1
        intro e
        exact h2.2 (by simp [e])
      idle := by
        intro j h1
        dsimp only
        by_cases ej : j = o.slot
        · subst ej
          rw [upd_same]
          exact Or.inr ⟨o, rfl, a1, rfl⟩
        · rw [upd_ne _ _ ej]
          exact I.idle j (hout j h1 ej) }

theorem overflowed_iff {o : Obj} {n : Nat} {b : Bool} (hd : s.data o.slot = ⟨o.size, o.ptr, n, b⟩)
    (h0 : 0 < o.size) (hp : Placed c o) :
    overflowed c s o.slot (c.page o.slot) = true ↔ ∃ a, Window c o a ∧ s.mem a ≠ magic o.slot := by
  have := hp.hi
  unfold overflowed rightAligned
  rw [hd]
  by_cases he : o.slot % 2 = 0
  · simp only [he, decide_true, if_true, List.any_eq_true, List.mem_range'_1, bne_iff_ne]
    constructor
    · rintro ⟨a, ⟨h1, h2⟩, h3⟩
      exact ⟨a, ⟨he, h0, h1, by omega, by omega⟩, h3⟩
    · rintro ⟨a, ⟨-, -, h1, h2, h3⟩, h4⟩
      exact ⟨a, ⟨h1, by omega⟩, h4⟩
  · simp only [he, decide_false, Bool.false_eq_true, if_false]
    exact ⟨fun e => e.elim, fun ⟨a, hw, _⟩ => he hw.1⟩

theorem Inv.protect_ok (h : c.OK) (I : Inv c s L) {i : Nat} (hi : i < s.frees.length) :
    ∃ s', protect c s i = some (s', .cont) ∧ Inv c s' L ∧ s'.backs = s.backs ++ [(s.frees[i]).1] ∧ s'.mem = s.mem ∧
      s'.acc (s.frees[i]).1 = false := by
  have hg : s.frees[i]? = some s.frees[i] := List.getElem?_eq_getElem hi
  generalize hx : s.frees[i] = x at hg
  obtain ⟨slot, ptr⟩ := x
  obtain ⟨o, b1, b2, b3, b4, b5, b6⟩ := I.freeing _ (List.mem_of_getElem? hg)
  dsimp only at b1 b2
  subst b1 b2
  have hc := fun j => I.cnt j
  simp only [owners_count] at hc
  have hce := fun j => count_erase Prod.fst hg j
  dsimp only at hce
  have hle := length_erase hg
  have hno : overflowed c s o.slot (c.page o.slot) = false ∨ o.size = 0 := by
    by_cases h0 : o.size = 0
    · exact Or.inr h0
    left
    cases hb : overflowed c s o.slot (c.page o.slot) with
    | false => rfl
    | true =>
      obtain ⟨a, hw, hm⟩ := (overflowed_iff b4 (by omega) b3).1 hb
      exact absurd (b6 a hw) hm
  have hover : (decide (0 < o.size) && overflowed c s o.slot (c.page o.slot)) = false := by
    rcases hno with e | e
    · rw [e]; simp
    · rw [e]; simp
  have hneL : ∀ x ∈ L, x.slot ≠ o.slot := by
    intro x hx e
    have h1 := hce o.slot
    have h2 := hc o.slot
    have h3 : 0 < (L.map Obj.slot).count o.slot := List.count_pos_iff.2 (e ▸ mem_slots hx)
    rw [if_pos rfl] at h1
    split at h2 <;> omega
  have hneF : ∀ x ∈ s.frees.eraseIdx i, x.1 ≠ o.slot := by
    intro x hx e
    have h1 := hce o.slot
    have h2 := hc o.slot
    have h3 : 0 < ((s.frees.eraseIdx i).map Prod.fst).count o.slot := List.count_pos_iff.2 (e ▸ List.mem_map_of_mem hx)
    rw [if_pos rfl] at h1
    split at h2 <;> omega
  unfold protect
  rw [hg]
  dsimp only
  rw [slotAddr_eq h b3.slot]
  dsimp only
  rw [b4]
  dsimp only
  rw [hover]
  simp only [Bool.false_eq_true, and_false, if_false, Bool.or_self, ne_eq, not_true_eq_false]
  have hacc' : ∀ j, (if o.size > 0 then upd s.acc o.slot false else s.acc) j = if j = o.slot then false else s.acc j := by
    intro j
    by_cases h0 : o.size > 0
    · rw [if_pos h0]; rfl
    · rw [if_neg h0]
      split
      · rename_i e; rw [e, b5]; simp; omega
      · rfl
  have hdata' : upd s.data o.slot ⟨o.size, o.ptr, 1, false⟩ = s.data := by
    funext j
    by_cases ej : j = o.slot
    · subst ej; rw [upd_same, b4]
    · rw [upd_ne _ _ ej]
  rw [hdata']
  refine ⟨_, rfl, ?_, rfl, rfl, ?_⟩
  · exact
      { wf := I.wf
        cnt := by
          intro j
          have := hc j
          have := hce j
          rw [owners_count]
          dsimp only
          rw [List.count_append]
          simp only [List.count_singleton, beq_iff_eq]
          omega
        tot := I.tot
        len := by
          have := I.len
          rw [owners_length] at *
          simp only [List.length_append, List.length_singleton] at *
          omega
        high := I.high
        lim := I.lim
        asked := I.asked
        live := by
          intro x hx
          obtain ⟨a1, a2, a3, a4⟩ := I.live x hx
          refine ⟨a1, a2, ?_, a4⟩
          dsimp only
          rw [hacc', if_neg (hneL x hx)]
          exact a3
        freeing := by
          intro x hx
          obtain ⟨o', d1, d2, d3, d4, d5, d6⟩ := I.freeing x (mem_eraseIdx hx)
          refine ⟨o', d1, d2, d3, d4, ?_, d6⟩
          dsimp only
          rw [hacc', if_neg (by rw [d1]; exact hneF x hx)]
          exact d5
        closed := by
          intro j h1 h2
          dsimp only at h2 ⊢
          rw [hacc']
          split
          · rfl
          · rename_i ej
            refine I.closed j h1 fun hm => h2 ?_
            have := hce j
            rw [if_neg (Ne.symm ej)] at this
            have h3 := List.count_pos_iff.2 hm
            exact List.count_pos_iff.1 (by omega)
        idle := I.idle }
  · dsimp only; rw [hacc', if_pos rfl]

theorem Inv.giveBack_ok (h : c.OK) (I : Inv c s L) {i : Nat} (hi : i < s.backs.length) :
    ∃ s', giveBack c s i = some (s', .done) ∧ Inv c s' L ∧ s'.mem = s.mem ∧ s'.backs = s.backs.eraseIdx i := by
  have hg : s.backs[i]? = some s.backs[i] := List.getElem?_eq_getElem hi
  generalize hx : s.backs[i] = slot at hg
  have hc := fun j => I.cnt j
  simp only [owners_count] at hc
  have hce := fun j => count_erase id hg j
  simp only [List.map_id, id] at hce
  have hle := length_erase hg
  have hbit : bitAt s.used slot = true := by
    have hs := hc slot
    have hse := hce slot
    rw [if_pos rfl] at hse
    cases hb : bitAt s.used slot with
    | true => rfl
    | false => rw [hb] at hs; simp at hs; omega
  have hlen := I.len
  rw [owners_length] at hlen
  obtain ⟨s', e1, e2, e3, e4⟩ := freeSlot_ok (c := c) h (slot := slot) (s := { s with backs := s.backs.eraseIdx i })
    I.wf hbit I.tot (by dsimp only; omega)
  unfold giveBack
  rw [hg]
  dsimp only
  rw [e1]
  refine ⟨s', rfl, ?_, by rw [e4], by rw [e4]⟩
  rw [e4]
  exact
    { wf := e2
      cnt := by
        intro j
        have := hc j
        have := hce j
        rw [owners_count]
        dsimp only
        rw [e3]
        dsimp only
        by_cases ej : j = slot
        · subst ej
          have g1 := hc j
          have g2 := hce j
          rw [if_pos rfl] at g2
          rw [hbit, if_pos rfl] at g1
          simp only [if_true, Bool.false_eq_true, if_false]
          omega
        · rw [if_neg ej]; rw [if_neg (Ne.symm ej)] at this; omega
      tot := by
        intro j hj
        dsimp only at hj
        rw [e3] at hj
        split at hj
        · cases hj
        · exact I.tot j hj
      len := by rw [owners_length]; dsimp only; omega
      high := by have := I.high; dsimp only; omega
      lim := I.lim
      asked := I.asked
      live := I.live
      freeing := I.freeing
      closed := I.closed
      idle := I.idle }

theorem Inv.store_ok (h : c.OK) (I : Inv c s L) {o : Obj} (ho : o ∈ L) {a : Nat} (h1 : o.ptr ≤ a) (h2 : a < o.ptr + o.size) (b : Nat) :
    store c s a b = ({ s with mem := upd s.mem a b }, .done) ∧ Inv c { s with mem := upd s.mem a b } L := by
  obtain ⟨a1, a2, a3, a4⟩ := I.live o ho
  have hon : c.On o.slot a := ⟨by have := a1.lo; omega, by have := a1.hi; omega⟩
  have hacc : accessible c s a = true := by
    unfold accessible
    rw [slot_on h a1.slot hon]
    dsimp only
    rw [a3]
    simp
    omega
  refine ⟨by unfold store; rw [if_pos hacc], ?_⟩
  have hmem : ∀ o' : Obj, Placed c o' → (o'.slot = o.slot → o' = o) → ∀ x, Window c o' x → upd s.mem a b x = s.mem x := by
    intro o' hp' hsame x hw
    apply upd_ne
    rintro rfl
    have := hsame (on_unique (Window.on hp' hw) hon)
    subst this
    have := hw.2.2.1
    omega
  have hc := I.cnt o.slot
  rw [owners_count] at hc
  exact
    { wf := I.wf, cnt := I.cnt, tot := I.tot, len := I.len, high := I.high, lim := I.lim, asked := I.asked
      live := by
        intro x hx
        obtain ⟨b1, b2, b3, b4⟩ := I.live x hx
        exact ⟨b1, b2, b3, fun y hy => by
          dsimp only; rw [hmem x b1 (fun e => I.slots_nodup hx ho e) y hy]; exact b4 y hy⟩
      freeing := by
        intro x hx
        obtain ⟨o', d1, d2, d3, d4, d5, d6⟩ := I.freeing x hx
        refine ⟨o', d1, d2, d3, d4, d5, fun y hy => ?_⟩
        dsimp only
        rw [hmem o' d3 (fun e => ?_) y hy]
        · exact d6 y hy
        · exfalso
          have f1 : 0 < (L.map Obj.slot).count o.slot := List.count_pos_iff.2 (mem_slots ho)
          have f2 : 0 < (s.frees.map Prod.fst).count o.slot :=
            List.count_pos_iff.2 (by rw [← e, d1]; exact List.mem_map_of_mem hx)
          split at hc <;> omega
      closed := I.closed
      idle := I.idle }

theorem Inv.step_ok (h : c.OK) (I : Inv c s L) {e : Ev} (hp : Pre c s L e) :
    ∃ s' o, step c s e = some (s', o) ∧ Inv c s' (live' L s e o) ∧ Expected c s L e o := by
  cases e with
  | reserve size al r =>
    rcases I.reserve_ok h hp with ⟨a1, a2⟩ | ⟨a1, s', slot, a2, a3, a4, a5, -⟩
    · exact ⟨s, _, by simp only [Guarded.step, a2]; rfl, I, Or.inl ⟨a1, rfl⟩⟩
    · exact ⟨s', _, by simp only [Guarded.step, a2]; rfl, a3, Or.inr ⟨a1, slot, rfl, a4, a5⟩⟩
  | allocate i ok =>
    have hg : s.allocs[i]? = some s.allocs[i] := List.getElem?_eq_getElem hp
    generalize s.allocs[i] = x at hg
    obtain ⟨slot, size, al⟩ := x
    rcases I.allocate_ok (ok := ok) h hg with ⟨a1, a2, s', a3, a4⟩ | ⟨a1, s', p, a3, a4⟩
    · exact ⟨s', _, a3, a4, slot, size, al, hg, Or.inl ⟨a1, a2, rfl⟩⟩
    · refine ⟨s', _, a3, ?_, slot, size, al, hg, Or.inr ⟨a1, p, rfl, (a4.live _ (List.mem_cons_self ..)).1⟩⟩
      simp only [live', hg]
      exact a4
  | dealloc p =>
    obtain ⟨o, ho, rfl⟩ := hp
    obtain ⟨s', a1, a2, -⟩ := I.dealloc_ok h ho
    refine ⟨s', _, a1, ?_, rfl⟩
    have : L.find? (fun x => decide (x.ptr = o.ptr)) = some o := by
      cases hf : L.find? (fun x => decide (x.ptr = o.ptr)) with
      | none => exact absurd (List.find?_eq_none.1 hf o ho) (by simp)
      | some x =>
        have hx := List.mem_of_find?_eq_some hf
        have hpx := List.find?_some hf
        simp only [decide_eq_true_eq] at hpx
        have p1 := (I.live x hx).1
        have p2 := (I.live o ho).1
        have q1 : c.On x.slot x.ptr := p1.on (p1.ptr_lt h)
        have q2 : c.On o.slot o.ptr := p2.on (p2.ptr_lt h)
        rw [hpx] at q1
        rw [I.slots_nodup hx ho (on_unique q1 q2)]
    simp only [live', this]
    exact a2
  | protect i =>
    obtain ⟨s', a1, a2, -⟩ := I.protect_ok h hp
    exact ⟨s', _, a1, a2, rfl⟩
  | giveBack i =>
    obtain ⟨s', a1, a2, -⟩ := I.giveBack_ok h hp
    exact ⟨s', _, a1, a2, rfl⟩
  | store a b =>
    obtain ⟨o, ho, h1, h2⟩ := hp
    obtain ⟨a1, a2⟩ := I.store_ok h ho h1 h2 b
    exact ⟨_, _, by simp only [Guarded.step, a1], a2, rfl⟩

theorem Reach.inv (h : c.OK) (hr : Reach c s L) : Inv c s L := by
  induction hr with
  | init mem => exact Inv.init mem
  | step _ hp hs ih =>
    obtain ⟨s', o, e1, e2, -⟩ := ih.step_ok h hp
    rw [e1] at hs
    cases hs
    exact e2

end Verif.Guarded
