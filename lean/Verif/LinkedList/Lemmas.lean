import Verif.LinkedList.Spec
namespace Verif.LinkedList

theorem upd_self {α : Type} (f : Ptr → α) (p : Ptr) (v : α) : upd f p v p = v := by simp [upd]
theorem upd_ne {α : Type} (f : Ptr → α) {p q : Ptr} (v : α) (h : q ≠ p) : upd f p v q = f q := by simp [upd, h]

theorem ne_mem {a b : Ptr} {L : List Ptr} (h1 : a ∈ L) (h2 : b ∉ L) : a ≠ b := fun e => h2 (e ▸ h1)

/-! ### Singly linked -/

theorem Holds.congr {f g : Ptr → Ptr} : ∀ {L : List Ptr} {p : Ptr}, Holds f p L → (∀ x ∈ L, g x = f x) → Holds g p L
  | [], _, h, _ => h
  | x :: L, p, ⟨h1, h2, h3⟩, hfg => by
      refine ⟨h1, h2, ?_⟩
      rw [hfg x (by simp)]
      exact h3.congr (fun y hy => hfg y (by simp [hy]))

theorem Holds.nz {f : Ptr → Ptr} : ∀ {L : List Ptr} {p : Ptr}, Holds f p L → ∀ x ∈ L, x ≠ 0
  | [], _, _, x, hx => by simp at hx
  | y :: L, p, ⟨_, h2, h3⟩, x, hx => by
      rcases List.mem_cons.1 hx with rfl | hx
      · exact h2
      · exact h3.nz x hx

structure SInv (s : S) (L : List Ptr) : Prop where
  holds : Holds s.nxt s.list L
  nodup : L.Nodup
  len : s.length = L.length

theorem push_spec {s : S} {L : List Ptr} (h : SInv s L) {p : Ptr} (hp : p ≠ 0) (hn : p ∉ L) :
    ∃ s', push s p = some s' ∧ SInv s' (p :: L) := by
  unfold push sllSetNext
  rw [if_neg hp]
  refine ⟨_, rfl, ⟨rfl, hp, ?_⟩, List.nodup_cons.2 ⟨hn, h.nodup⟩, by simp [h.len]⟩
  simp only [upd_self]
  exact h.holds.congr (fun x hx => upd_ne _ _ (fun e => hn (e ▸ hx)))

theorem tryPop_spec {s : S} {L : List Ptr} (h : SInv s L) :
    match L with
    | [] => tryPop s = some (s, none)
    | p :: L' => ∃ s', tryPop s = some (s', some p) ∧ SInv s' L' ∧ s'.nxt = s.nxt := by
  cases L with
  | nil =>
    have := h.holds
    simp only [Holds] at this
    simp [tryPop, this]
  | cons p L' =>
    obtain ⟨h1, h2, h3⟩ := h.holds
    have hl := h.len
    rw [List.length_cons] at hl
    simp only []
    unfold tryPop sllNext subLen
    rw [h1, if_neg h2, if_neg h2, if_pos (by omega)]
    exact ⟨_, rfl, ⟨h3, (List.nodup_cons.1 h.nodup).2, by simp only []; omega⟩, rfl⟩

theorem chain_spec {tail : Ptr} {L : List Ptr} : ∀ (b : List Ptr) (nxt : Ptr → Ptr), b ≠ [] → b.Nodup →
    (∀ p ∈ b, p ≠ 0 ∧ p ∉ L) → Holds nxt tail L →
    ∃ nxt', chain nxt tail b = some nxt' ∧ (∀ x, x ∉ b → nxt' x = nxt x) ∧
      Holds nxt' (b.headD 0) (b ++ L)
  | [], _, h, _, _, _ => absurd rfl h
  | [x], nxt, _, _, hb, hL => by
      have hx := hb x (by simp)
      unfold chain sllSetNext
      rw [if_neg hx.1]
      refine ⟨_, rfl, fun y hy => upd_ne _ _ (by simpa using hy), rfl, hx.1, ?_⟩
      rw [upd_self]
      exact hL.congr (fun y hy => upd_ne _ _ (fun e => hx.2 (e ▸ hy)))
  | x :: y :: r, nxt, _, hnd, hb, hL => by
      have hx := hb x (by simp)
      obtain ⟨n1, n2⟩ := List.nodup_cons.1 hnd
      unfold chain sllSetNext
      rw [if_neg hx.1]
      simp only []
      obtain ⟨nxt', e, h1, h2⟩ := chain_spec (y :: r) (upd nxt x y) (by simp) n2 (fun p hp => hb p (by simp [List.mem_cons.1 hp]))
        (hL.congr (fun z hz => upd_ne _ _ (fun e => hx.2 (e ▸ hz))))
      refine ⟨nxt', e, fun z hz => ?_, rfl, hx.1, ?_⟩
      · rw [h1 z (fun hc => hz (by simp [List.mem_cons.1 hc]))]
        exact upd_ne _ _ (fun e => hz (by simp [e]))
      · rw [h1 x n1, upd_self]
        exact h2

theorem pushBatch_spec {s : S} {L b : List Ptr} (h : SInv s L) (hne : b ≠ []) (hnd : b.Nodup)
    (hb : ∀ p ∈ b, p ≠ 0 ∧ p ∉ L) : ∃ s', pushBatch s b = some s' ∧ SInv s' (b ++ L) := by
  cases b with
  | nil => exact absurd rfl hne
  | cons x r =>
    obtain ⟨nxt', e, _, h2⟩ := chain_spec (x :: r) s.nxt hne hnd hb h.holds
    unfold pushBatch
    simp only []
    rw [e]
    refine ⟨_, rfl, h2, ?_, by simp [h.len]; omega⟩
    rw [List.nodup_append]
    refine ⟨hnd, h.nodup, fun a ha b hb' e => (hb a ha).2 (e ▸ hb')⟩

theorem popLoop_spec {nxt : Ptr → Ptr} : ∀ (b L : List Ptr) (p : Ptr), Holds nxt p (b ++ L) →
    ∃ q, popLoop nxt p b.length = some (b, q) ∧ Holds nxt q L
  | [], L, p, h => ⟨p, rfl, h⟩
  | x :: b, L, p, ⟨h1, h2, h3⟩ => by
      obtain ⟨q, e, h⟩ := popLoop_spec b L _ h3
      rw [List.length_cons, popLoop, sllNext, h1, if_neg h2]
      simp only []
      rw [e]
      exact ⟨q, rfl, h⟩

theorem popBatch_spec {s : S} {b L : List Ptr} (h : SInv s (b ++ L)) :
    ∃ s', popBatch s b.length = some (s', b) ∧ SInv s' L ∧ s'.nxt = s.nxt := by
  obtain ⟨q, e, hq⟩ := popLoop_spec b L _ h.holds
  have hl := h.len
  rw [List.length_append] at hl
  unfold popBatch subLen
  rw [e, if_pos (by omega)]
  exact ⟨_, rfl, ⟨hq, (List.nodup_append.1 h.nodup).2.1, by simp only []; omega⟩, rfl⟩

/-! ### Doubly linked -/

/-- Consecutive elements point at each other. -/
def Linked (m : M) : List Ptr → Prop
  | x :: y :: r => m.next x = y ∧ m.prev y = x ∧ Linked m (y :: r)
  | _ => True

theorem Linked.split (m : M) (x : Ptr) (B : List Ptr) : ∀ A : List Ptr,
    Linked m (A ++ x :: B) ↔ Linked m (A ++ [x]) ∧ Linked m (x :: B)
  | [] => by simp [Linked]
  | [a] => by simp [Linked, and_assoc]
  | a :: b :: A => by
      have := Linked.split m x B (b :: A)
      simp only [List.cons_append, Linked] at this ⊢
      rw [this]
      simp [and_assoc]

/-- Only the `next` of all but the last and the `prev` of all but the first matter. -/
theorem Linked.congr {m m' : M} : ∀ {L : List Ptr}, Linked m L → (∀ x ∈ L.dropLast, m'.next x = m.next x) →
    (∀ x ∈ L.tail, m'.prev x = m.prev x) → Linked m' L
  | [], _, _, _ => trivial
  | [_], _, _, _ => trivial
  | x :: y :: r, ⟨h1, h2, h3⟩, hn, hp => by
      refine ⟨?_, ?_, ?_⟩
      · rw [hn x (by simp [List.dropLast]), h1]
      · rw [hp y (by simp), h2]
      · exact Linked.congr h3 (fun z hz => hn z (by simp [List.dropLast, hz])) (fun z hz => hp z (by simp only [List.tail_cons] at hz ⊢; simp [hz]))

/-- Memory holds list `h` with elements `L`. -/
structure IsList (m : M) (h : Ptr) (L : List Ptr) : Prop where
  linked : Linked m (h :: (L ++ [h]))
  nodup : (h :: L).Nodup

theorem IsList.frame {m m' : M} {h : Ptr} {L : List Ptr} (hl : IsList m h L)
    (hn : ∀ x ∈ h :: L, m'.next x = m.next x) (hp : ∀ x ∈ h :: L, m'.prev x = m.prev x) : IsList m' h L := by
  refine ⟨hl.linked.congr (fun x hx => hn x ?_) (fun x hx => hp x ?_), hl.nodup⟩
  · rw [show h :: (L ++ [h]) = (h :: L) ++ [h] from rfl, List.dropLast_concat] at hx
    exact hx
  · simp only [List.tail_cons, List.mem_append, List.mem_singleton] at hx
    simp only [List.mem_cons]
    exact hx.symm

theorem link_frame {m m' : M} {x y : Ptr} {P Q : List Ptr}
    (hD : ((P ++ [x]) ++ (y :: Q).dropLast).Nodup) (hT : ((P ++ [x]).tail ++ y :: Q).Nodup)
    (l1 : Linked m (P ++ [x])) (l2 : Linked m (y :: Q))
    (hn : ∀ z ∈ P ++ (y :: Q).dropLast, z ≠ x → m'.next z = m.next z)
    (hp : ∀ z ∈ (P ++ [x]).tail ++ Q, z ≠ y → m'.prev z = m.prev z) :
    Linked m' (P ++ [x]) ∧ Linked m' (y :: Q) := by
  rw [List.nodup_append] at hD hT
  obtain ⟨d1, d2, d3⟩ := hD
  obtain ⟨t1, t2, t3⟩ := hT
  refine ⟨l1.congr ?_ ?_, l2.congr ?_ ?_⟩
  · intro z hz
    rw [List.dropLast_concat] at hz
    refine hn z (by simp [hz]) (fun e => ?_)
    rw [List.nodup_append] at d1
    exact d1.2.2 z hz x (by simp) e
  · intro z hz
    exact hp z (by simp [hz]) (fun e => t3 z hz y (by simp) e)
  · intro z hz
    exact hn z (by simp [hz]) (fun e => d3 x (by simp) z hz e.symm)
  · intro z hz
    rw [List.tail_cons] at hz
    exact hp z (by simp [hz]) (fun e => (List.nodup_cons.1 t2).1 (e ▸ hz))

/-- Inserting `o` between neighbours `x` and `y`. -/
theorem insert_between {m m' : M} {o x y : Ptr} {P Q : List Ptr} (hl : Linked m (P ++ x :: y :: Q))
    (hD : ((P ++ [x]) ++ (y :: Q).dropLast).Nodup) (hT : ((P ++ [x]).tail ++ y :: Q).Nodup)
    (hn : ∀ z ∈ P ++ (y :: Q).dropLast, z ≠ x → m'.next z = m.next z)
    (hp : ∀ z ∈ (P ++ [x]).tail ++ Q, z ≠ y → m'.prev z = m.prev z)
    (e1 : m'.next x = o) (e2 : m'.prev o = x) (e3 : m'.next o = y) (e4 : m'.prev y = o) :
    Linked m' (P ++ x :: o :: y :: Q) := by
  rw [Linked.split] at hl ⊢
  obtain ⟨l1, l2⟩ := hl
  obtain ⟨r1, r2⟩ := link_frame hD hT l1 l2.2.2 hn hp
  exact ⟨r1, e1, e2, e3, e4, r2⟩

/-- Unlinking `o` from between `x` and `y`. -/
theorem remove_between {m m' : M} {o x y : Ptr} {P Q : List Ptr} (hl : Linked m (P ++ x :: o :: y :: Q))
    (hD : ((P ++ [x]) ++ (y :: Q).dropLast).Nodup) (hT : ((P ++ [x]).tail ++ y :: Q).Nodup)
    (hn : ∀ z ∈ P ++ (y :: Q).dropLast, z ≠ x → m'.next z = m.next z)
    (hp : ∀ z ∈ (P ++ [x]).tail ++ Q, z ≠ y → m'.prev z = m.prev z)
    (e1 : m'.next x = y) (e4 : m'.prev y = x) :
    Linked m' (P ++ x :: y :: Q) := by
  rw [Linked.split] at hl ⊢
  obtain ⟨l1, l2⟩ := hl
  obtain ⟨r1, r2⟩ := link_frame hD hT l1 l2.2.2.2.2 hn hp
  exact ⟨r1, e1, e4, r2⟩

/-- A list with its head on both ends, cut between two neighbours. -/
theorem cut {h : Ptr} {L : List Ptr} {A B : List Ptr} (e : L = A ++ B) :
    ∃ P x y Q, h :: (L ++ [h]) = P ++ x :: y :: Q ∧ h :: A = P ++ [x] ∧ B ++ [h] = y :: Q := by
  obtain ⟨P, x, e1⟩ : ∃ P x, h :: A = P ++ [x] := ⟨(h :: A).dropLast, (h :: A).getLast (by simp),
    (List.dropLast_concat_getLast (by simp)).symm⟩
  obtain ⟨y, Q, e2⟩ : ∃ y Q, B ++ [h] = y :: Q := by
    cases B with
    | nil => exact ⟨h, [], rfl⟩
    | cons b B => exact ⟨b, B ++ [h], rfl⟩
  refine ⟨P, x, y, Q, ?_, e1, e2⟩
  rw [e, List.append_assoc, e2, ← List.cons_append, e1, List.append_assoc]
  rfl

theorem cut_facts {h : Ptr} {L P Q A B : List Ptr} {x y : Ptr} (e : L = A ++ B) (e1 : h :: A = P ++ [x])
    (e2 : B ++ [h] = y :: Q) (hnd : (h :: L).Nodup) :
    ((P ++ [x]) ++ (y :: Q).dropLast).Nodup ∧ ((P ++ [x]).tail ++ y :: Q).Nodup ∧
      (∀ z ∈ P ++ (y :: Q).dropLast, z ∈ h :: L) ∧ (∀ z ∈ (P ++ [x]).tail ++ Q, z ∈ h :: L) ∧
      x ∈ h :: L ∧ y ∈ h :: L := by
  have d : (y :: Q).dropLast = B := by rw [← e2, List.dropLast_concat]
  refine ⟨?_, ?_, ?_, ?_, ?_, ?_⟩
  · rw [d, ← e1, e] at *
    exact hnd
  · rw [← e1, List.tail_cons, ← e2, ← List.append_assoc, ← e]
    rw [List.nodup_append]
    obtain ⟨n1, n2⟩ := List.nodup_cons.1 hnd
    refine ⟨n2, by simp, fun a ha b hb => ?_⟩
    simp only [List.mem_singleton] at hb
    rw [hb]
    exact fun e => n1 (e ▸ ha)
  · intro z hz
    rw [d] at hz
    rcases List.mem_append.1 hz with hz | hz
    · have : z ∈ h :: A := by rw [e1]; simp [hz]
      rw [e]
      rcases List.mem_cons.1 this with rfl | hz
      · simp
      · simp [hz]
    · rw [e]; simp [hz]
  · intro z hz
    rw [← e1, List.tail_cons] at hz
    rcases List.mem_append.1 hz with hz | hz
    · rw [e]; simp [hz]
    · have : z ∈ B ++ [h] := by rw [e2]; simp [hz]
      rw [e]
      rcases List.mem_append.1 this with hz | hz
      · simp [hz]
      · simp at hz; simp [hz]
  · have : x ∈ h :: A := by rw [e1]; simp
    rw [e]
    rcases List.mem_cons.1 this with rfl | hz
    · simp
    · simp [hz]
  · have : y ∈ B ++ [h] := by rw [e2]; simp
    rw [e]
    rcases List.mem_append.1 this with hz | hz
    · simp [hz]
    · simp at hz; simp [hz]

/-- The neighbours in memory. -/
theorem cut_links {m : M} {P Q : List Ptr} {x y : Ptr} (hl : Linked m (P ++ x :: y :: Q)) :
    m.next x = y ∧ m.prev y = x := by
  rw [Linked.split] at hl
  exact ⟨hl.2.1, hl.2.2.1⟩

/-- What both insertion primitives do to memory, given that `x` and `y` are neighbours. -/
structure Inserted (m m' : M) (x o y h : Ptr) : Prop where
  next : ∀ z, m'.next z = if z = x then o else if z = o then y else m.next z
  prev : ∀ z, m'.prev z = if z = y then o else if z = o then x else m.prev z
  owner : m'.owner = upd m.owner o h

theorem elemPrepend_spec {m : M} {x o y h : Ptr} (h1 : m.prev y = x) (h3 : m.owner o = 0) :
    ∃ m', elemPrepend m y o h = some m' ∧ Inserted m m' x o y h := by
  unfold elemPrepend
  simp only []
  rw [if_pos h3]
  refine ⟨_, rfl, ?_, ?_, rfl⟩
  · intro z; simp only [upd, h1]
  · intro z; simp only [upd, h1]

theorem elemAppend_spec {m : M} {x o y h : Ptr} (h2 : m.next x = y) (h3 : m.owner o = 0) :
    ∃ m', elemAppend m x o h = some m' ∧ Inserted m m' x o y h := by
  unfold elemAppend
  simp only []
  rw [if_pos h3]
  refine ⟨_, rfl, ?_, ?_, rfl⟩
  · intro z; simp only [upd, h2]
  · intro z; simp only [upd, h2]

theorem inserted_isList {m m' : M} {h o x y : Ptr} {L A B P Q : List Ptr} (hl : IsList m h L) (e : L = A ++ B)
    (e1 : h :: A = P ++ [x]) (e2 : B ++ [h] = y :: Q) (ho : o ∉ h :: L) (hi : Inserted m m' x o y h) :
    IsList m' h (A ++ o :: B) := by
  obtain ⟨hD, hT, hin, hip, hx, hy⟩ := cut_facts e e1 e2 hl.nodup
  have hW : h :: (L ++ [h]) = P ++ x :: y :: Q := by
    rw [e, List.append_assoc, e2, ← List.cons_append, e1, List.append_assoc]; rfl
  have hox : o ≠ x := fun e => ho (e ▸ hx)
  have hoy : o ≠ y := fun e => ho (e ▸ hy)
  have hlk := hl.linked
  rw [hW] at hlk
  have := insert_between (m' := m') (o := o) hlk hD hT
    (fun z hz hzx => by
      rw [hi.next, if_neg hzx, if_neg (ne_mem (hin z hz) ho)])
    (fun z hz hzy => by
      rw [hi.prev, if_neg hzy, if_neg (ne_mem (hip z hz) ho)])
    (by rw [hi.next, if_pos rfl]) (by rw [hi.prev, if_neg hoy, if_pos rfl])
    (by rw [hi.next, if_neg hox, if_pos rfl]) (by rw [hi.prev, if_pos rfl])
  refine ⟨?_, ?_⟩
  · have e3 : h :: (A ++ o :: B ++ [h]) = P ++ x :: o :: y :: Q := by
      rw [List.append_assoc, List.cons_append, e2, ← List.cons_append, e1, List.append_assoc]; rfl
    rw [e3]
    exact this
  · have : (o :: (h :: L)).Nodup := List.nodup_cons.2 ⟨ho, hl.nodup⟩
    rw [e] at this
    refine (List.Perm.nodup_iff ?_).1 this
    have p1 : (o :: h :: (A ++ B)).Perm (h :: o :: (A ++ B)) := List.Perm.swap ..
    exact p1.trans (List.Perm.cons h (List.perm_middle.symm))

/-- The invariant of many lists sharing memory. -/
structure Inv (H : List Ptr) (m : M) (c : Ptr → List Ptr) : Prop where
  heads : H.Nodup
  nz : 0 ∉ H
  lists : ∀ h ∈ H, IsList m h (c h)
  disj : ∀ h ∈ H, ∀ h' ∈ H, h ≠ h' → ∀ x ∈ h :: c h, x ∉ h' :: c h'
  own : ∀ x, m.owner x ≠ 0 → ∃ h ∈ H, m.owner x = h ∧ x ∈ c h
  own' : ∀ h ∈ H, ∀ x ∈ c h, m.owner x = h
  nzx : ∀ h ∈ H, ∀ x ∈ c h, x ≠ 0

theorem Inv.fresh_owner {H : List Ptr} {m : M} {c : Ptr → List Ptr} (hi : Inv H m c) {x : Ptr} (hx : Fresh H c x) :
    m.owner x = 0 := by
  apply Classical.byContradiction
  intro hc
  obtain ⟨h, hh, _, hxc⟩ := hi.own x hc
  exact hx.2.2 h hh hxc

theorem Inv.fresh_notin {H : List Ptr} {m : M} {c : Ptr → List Ptr} (_ : Inv H m c) {x : Ptr} (hx : Fresh H c x)
    {h : Ptr} (hh : h ∈ H) : x ∉ h :: c h := by
  intro hc
  rcases List.mem_cons.1 hc with rfl | hc
  · exact hx.2.1 hh
  · exact hx.2.2 h hh hc

theorem Inv.insert {H : List Ptr} {m m' : M} {c : Ptr → List Ptr} (hi : Inv H m c) {h o x y : Ptr} (hh : h ∈ H)
    (ho : Fresh H c o) {A B P Q : List Ptr} (e : c h = A ++ B) (e1 : h :: A = P ++ [x]) (e2 : B ++ [h] = y :: Q)
    (hins : Inserted m m' x o y h) : Inv H m' (upd c h (A ++ o :: B)) := by
  have hl := hi.lists h hh
  obtain ⟨_, _, _, _, hx, hy⟩ := cut_facts e e1 e2 hl.nodup
  have hmem : ∀ z, z ∈ A ++ o :: B ↔ z = o ∨ z ∈ c h := by
    intro z; rw [e]; simp only [List.mem_append, List.mem_cons]
    constructor
    · rintro (a | a | a) <;> simp [a]
    · rintro (a | a | a) <;> simp [a]
  refine ⟨hi.heads, hi.nz, ?_, ?_, ?_, ?_, ?_⟩
  · intro h' hh'
    by_cases hc : h' = h
    · subst hc
      rw [upd_self]
      exact inserted_isList hl e e1 e2 (hi.fresh_notin ho hh) hins
    · rw [upd_ne _ _ hc]
      refine (hi.lists h' hh').frame (fun z hz => ?_) (fun z hz => ?_)
      · rw [hins.next, if_neg (ne_mem hz (hi.disj h hh h' hh' (Ne.symm hc) x hx)),
          if_neg (ne_mem hz (hi.fresh_notin ho hh'))]
      · rw [hins.prev, if_neg (ne_mem hz (hi.disj h hh h' hh' (Ne.symm hc) y hy)),
          if_neg (ne_mem hz (hi.fresh_notin ho hh'))]
  · have key : ∀ h1 ∈ H, ∀ z, z ∈ h1 :: upd c h (A ++ o :: B) h1 → (z = o ∧ h1 = h) ∨ z ∈ h1 :: c h1 := by
      intro h1 _ z hz
      by_cases hc : h1 = h
      · subst hc
        rw [upd_self] at hz
        rcases List.mem_cons.1 hz with rfl | hz
        · simp
        · rcases (hmem z).1 hz with rfl | hz
          · simp
          · simp [hz]
      · rw [upd_ne _ _ hc] at hz
        exact Or.inr hz
    intro h1 hh1 h2 hh2 hne z hz1 hz2
    rcases key h1 hh1 z hz1 with ⟨rfl, e1⟩ | k1 <;> rcases key h2 hh2 z hz2 with ⟨e2, e3⟩ | k2
    · exact hne (e1.trans e3.symm)
    · exact hi.fresh_notin ho hh2 k2
    · exact hi.fresh_notin ho hh1 (e2 ▸ k1)
    · exact hi.disj h1 hh1 h2 hh2 hne z k1 k2
  · intro z hz
    rw [hins.owner] at hz ⊢
    by_cases hc : z = o
    · subst hc
      exact ⟨h, hh, upd_self _ _ _, by rw [upd_self]; simp⟩
    · rw [upd_ne _ _ hc] at hz ⊢
      obtain ⟨h', hh', f1, f2⟩ := hi.own z hz
      refine ⟨h', hh', f1, ?_⟩
      by_cases hc' : h' = h
      · subst hc'; rw [upd_self, hmem]; exact Or.inr f2
      · rw [upd_ne _ _ hc']; exact f2
  · intro h' hh' z hz
    rw [hins.owner]
    by_cases hc' : h' = h
    · subst hc'
      rw [upd_self, hmem] at hz
      rcases hz with rfl | hz
      · exact upd_self _ _ _
      · rw [upd_ne _ _ (ne_mem hz (ho.2.2 h' hh'))]; exact hi.own' h' hh' z hz
    · rw [upd_ne _ _ hc'] at hz
      rw [upd_ne _ _ (ne_mem hz (ho.2.2 h' hh'))]; exact hi.own' h' hh' z hz
  · intro h' hh' z hz
    by_cases hc' : h' = h
    · subst hc'
      rw [upd_self, hmem] at hz
      rcases hz with rfl | hz
      · exact ho.1
      · exact hi.nzx h' hh' z hz
    · rw [upd_ne _ _ hc'] at hz
      exact hi.nzx h' hh' z hz

theorem remove_spec {H : List Ptr} {m : M} {c : Ptr → List Ptr} (hi : Inv H m c) {h o : Ptr} (hh : h ∈ H)
    {A B : List Ptr} (e : c h = A ++ o :: B) :
    ∃ m', remove m h o = some (m', (A ++ B).isEmpty) ∧ Inv H m' (upd c h (A ++ B)) := by
  have hl := hi.lists h hh
  have hoc : o ∈ c h := by rw [e]; simp
  obtain ⟨P, x, e1⟩ : ∃ P x, h :: A = P ++ [x] := ⟨(h :: A).dropLast, (h :: A).getLast (by simp),
    (List.dropLast_concat_getLast (by simp)).symm⟩
  obtain ⟨y, Q, e2⟩ : ∃ y Q, B ++ [h] = y :: Q := by
    cases B with
    | nil => exact ⟨h, [], rfl⟩
    | cons b B => exact ⟨b, B ++ [h], rfl⟩
  have hnd : (o :: h :: (A ++ B)).Nodup := by
    have h1 := hl.nodup
    rw [e] at h1
    refine (List.Perm.nodup_iff ?_).1 h1
    exact (List.Perm.cons h List.perm_middle).trans (List.Perm.swap ..)
  obtain ⟨ho, hnd'⟩ := List.nodup_cons.1 hnd
  obtain ⟨hD, hT, hin, hip, hx, hy⟩ := cut_facts (L := A ++ B) rfl e1 e2 hnd'
  have hox : x ≠ o := fun e => ho (e ▸ hx)
  have hoy : y ≠ o := fun e => ho (e ▸ hy)
  have hW : h :: (c h ++ [h]) = P ++ x :: o :: y :: Q := by
    rw [e, List.append_assoc, List.cons_append, e2, ← List.cons_append, e1, List.append_assoc]; rfl
  have hlk := hl.linked
  rw [hW] at hlk
  have hlk2 := (Linked.split m x (o :: y :: Q) P).1 hlk
  obtain ⟨n1, p1, n2, p2, _⟩ := hlk2.2
  have hmem : ∀ z, z ∈ c h ↔ z = o ∨ z ∈ A ++ B := by
    intro z; rw [e]; simp only [List.mem_append, List.mem_cons]
    constructor
    · rintro (a | a | a) <;> simp [a]
    · rintro (a | a | a) <;> simp [a]
  unfold remove
  rw [if_pos (hi.own' h hh o hoc)]
  unfold elemRemove
  simp only [n2, p1, n1, if_true]
  simp only [p2, if_true]
  have hret : (y == x) = (A ++ B).isEmpty := by
    cases A with
    | cons a A =>
      cases B with
      | nil =>
        simp only [List.nil_append, List.cons.injEq] at e2
        have hya : y = h := e2.1.symm
        have hxa : x ∈ a :: A := by
          have : x = (h :: a :: A).getLast (by simp) := by simp [e1]
          rw [this]; simp only [List.getLast_cons_cons]; exact List.getLast_mem _
        have : y ≠ x := by
          intro he
          rw [hya] at he
          rw [List.nodup_cons] at hnd'
          exact hnd'.1 (by rw [he]; simp only [List.append_nil]; exact hxa)
        simp [this]
      | cons b B =>
        simp only [List.cons_append, List.cons.injEq] at e2
        have hyb : y = b := e2.1.symm
        have hxa : x ∈ h :: a :: A := by rw [e1]; simp
        have : y ≠ x := by
          intro he
          have hn : ((h :: a :: A) ++ b :: B).Nodup := hnd'
          rw [List.nodup_append] at hn
          exact hn.2.2 x hxa b (by simp) (by rw [← he, hyb])
        simp [this]
    | nil =>
      have hxh : x = h := by
        cases P with
        | nil => simp at e1; exact e1.symm
        | cons p P => simp at e1
      cases B with
      | nil =>
        simp only [List.nil_append, List.cons.injEq] at e2
        simp [hxh, e2.1]
      | cons b B =>
        simp only [List.cons_append, List.cons.injEq] at e2
        have hyb : y = b := e2.1.symm
        have : y ≠ x := by
          intro he
          rw [List.nodup_cons] at hnd'
          exact hnd'.1 (by rw [← hxh, ← he, hyb]; simp)
        simp [this]
  rw [hret]
  refine ⟨_, rfl, hi.heads, hi.nz, ?_, ?_, ?_, ?_, ?_⟩
  · intro h' hh'
    by_cases hc : h' = h
    · subst hc
      rw [upd_self]
      refine ⟨?_, hnd'⟩
      have e3 : h' :: (A ++ B ++ [h']) = P ++ x :: y :: Q := by
        rw [List.append_assoc, e2, ← List.cons_append, e1, List.append_assoc]; rfl
      rw [e3]
      refine remove_between hlk hD hT (fun z hz hzx => ?_) (fun z hz hzy => ?_) ?_ ?_
      · simp only []
        rw [upd_ne _ _ (ne_mem (hin z hz) ho), upd_ne _ _ hzx]
      · simp only []
        rw [upd_ne _ _ (ne_mem (hip z hz) ho), upd_ne _ _ hzy]
      · simp only []
        rw [upd_ne _ _ hox, upd_self]
      · simp only []
        rw [upd_ne _ _ hoy, upd_self]
    · rw [upd_ne _ _ hc]
      have hsub : ∀ z ∈ h :: (A ++ B), z ∈ h :: c h := by
        intro z hz
        rcases List.mem_cons.1 hz with rfl | hz
        · simp
        · exact List.mem_cons_of_mem _ ((hmem z).2 (Or.inr hz))
      refine (hi.lists h' hh').frame (fun z hz => ?_) (fun z hz => ?_)
      · simp only []
        rw [upd_ne _ _ (ne_mem hz (hi.disj h hh h' hh' (Ne.symm hc) o (by simp [hoc]))),
          upd_ne _ _ (ne_mem hz (hi.disj h hh h' hh' (Ne.symm hc) x (hsub x hx)))]
      · simp only []
        rw [upd_ne _ _ (ne_mem hz (hi.disj h hh h' hh' (Ne.symm hc) o (by simp [hoc]))),
          upd_ne _ _ (ne_mem hz (hi.disj h hh h' hh' (Ne.symm hc) y (hsub y hy)))]
  · have key : ∀ h1, ∀ z, z ∈ h1 :: upd c h (A ++ B) h1 → z ∈ h1 :: c h1 := by
      intro h1 z hz
      by_cases hc : h1 = h
      · subst hc
        rw [upd_self] at hz
        rcases List.mem_cons.1 hz with rfl | hz
        · simp
        · exact List.mem_cons_of_mem _ ((hmem z).2 (Or.inr hz))
      · rw [upd_ne _ _ hc] at hz
        exact hz
    intro h1 hh1 h2 hh2 hne z hz1 hz2
    exact hi.disj h1 hh1 h2 hh2 hne z (key h1 z hz1) (key h2 z hz2)
  · intro z hz
    simp only [] at hz ⊢
    by_cases hc : z = o
    · rw [hc, upd_self] at hz; exact absurd rfl hz
    · rw [upd_ne _ _ hc, upd_ne _ _ hc] at hz ⊢
      obtain ⟨h', hh', a, b⟩ := hi.own z hz
      refine ⟨h', hh', a, ?_⟩
      by_cases hc' : h' = h
      · subst hc'
        rw [upd_self]
        rcases (hmem z).1 b with b | b
        · exact absurd b hc
        · exact b
      · rw [upd_ne _ _ hc']; exact b
  · intro h' hh' z hz
    simp only []
    have hzo : z ≠ o ∧ z ∈ c h' := by
      by_cases hc' : h' = h
      · subst hc'
        rw [upd_self] at hz
        exact ⟨fun e => ho (e ▸ List.mem_cons_of_mem _ hz), (hmem z).2 (Or.inr hz)⟩
      · rw [upd_ne _ _ hc'] at hz
        exact ⟨fun e => hi.disj h hh h' hh' (Ne.symm hc') o (by simp [hoc]) (List.mem_cons_of_mem _ (e ▸ hz)), hz⟩
    rw [upd_ne _ _ hzo.1, upd_ne _ _ hzo.1]
    exact hi.own' h' hh' z hzo.2
  · intro h' hh' z hz
    by_cases hc' : h' = h
    · subst hc'
      rw [upd_self] at hz
      exact hi.nzx h' hh' z ((hmem z).2 (Or.inr hz))
    · rw [upd_ne _ _ hc'] at hz
      exact hi.nzx h' hh' z hz

theorem exec_spec {H : List Ptr} {m : M} {c : Ptr → List Ptr} (hi : Inv H m c) {op : Op} {c' : Ptr → List Ptr}
    {r : Option Bool} (hs : SpecStep H c op c' r) : ∃ m', exec m op = some (m', r) ∧ Inv H m' c' := by
  have insA : ∀ {h o : Ptr} {A B : List Ptr}, h ∈ H → Fresh H c o → c h = A ++ B → ∀ x, (h :: A).getLast? = some x →
      ∃ m', elemAppend m x o h = some m' ∧ Inv H m' (upd c h (A ++ o :: B)) := by
    intro h o A B hh ho e x hx
    obtain ⟨P, x', y, Q, hW, e1, e2⟩ := cut e
    have : x' = x := by rw [e1] at hx; simpa using hx
    subst this
    have hlk := (hi.lists h hh).linked
    rw [hW] at hlk
    obtain ⟨m', e3, h3⟩ := elemAppend_spec (h := h) (cut_links hlk).1 (hi.fresh_owner ho)
    exact ⟨m', e3, hi.insert hh ho e e1 e2 h3⟩
  have insP : ∀ {h o : Ptr} {A B : List Ptr}, h ∈ H → Fresh H c o → c h = A ++ B → ∀ y, (B ++ [h]).head? = some y →
      ∃ m', elemPrepend m y o h = some m' ∧ Inv H m' (upd c h (A ++ o :: B)) := by
    intro h o A B hh ho e y hy
    obtain ⟨P, x, y', Q, hW, e1, e2⟩ := cut e
    have : y' = y := by rw [e2] at hy; simpa using hy
    subst this
    have hlk := (hi.lists h hh).linked
    rw [hW] at hlk
    obtain ⟨m', e3, h3⟩ := elemPrepend_spec (h := h) (cut_links hlk).2 (hi.fresh_owner ho)
    exact ⟨m', e3, hi.insert hh ho e e1 e2 h3⟩
  cases hs with
  | prepend h x hh hx =>
    obtain ⟨m', e, hI⟩ := insA (A := []) (B := c h) hh hx rfl h rfl
    exact ⟨m', by simp [exec, prepend, e], hI⟩
  | append h x hh hx =>
    obtain ⟨m', e, hI⟩ := insP (A := c h) (B := []) hh hx (by simp) h rfl
    exact ⟨m', by simp [exec, append, e], hI⟩
  | prependAt h a x A B hh hx e =>
    obtain ⟨m', e, hI⟩ := insP (A := A) (B := a :: B) hh hx e a rfl
    exact ⟨m', by simp [exec, prependAt, e], hI⟩
  | appendAt h a x A B hh hx e =>
    obtain ⟨m', e, hI⟩ := insA (A := A ++ [a]) (B := B) hh hx (by rw [e]; simp) a (by
      rw [← List.cons_append, List.getLast?_concat])
    rw [List.append_assoc] at hI
    exact ⟨m', by simp [exec, appendAt, e], hI⟩
  | remove h x A B hh e =>
    obtain ⟨m', e, hI⟩ := remove_spec hi hh e
    exact ⟨m', by simp [exec, e], hI⟩

theorem init_spec (H : List Ptr) (m : M) : ∀ x, (x ∈ H → (H.foldl initHead m).next x = x ∧ (H.foldl initHead m).prev x = x) ∧
    (x ∉ H → (H.foldl initHead m).next x = m.next x ∧ (H.foldl initHead m).prev x = m.prev x) ∧
    (H.foldl initHead m).owner x = m.owner x := by
  intro x
  induction H generalizing m with
  | nil => simp
  | cons h H ih =>
    rw [List.foldl_cons]
    obtain ⟨a, b, c⟩ := ih (initHead m h)
    refine ⟨fun hx => ?_, fun hx => ?_, c⟩
    · by_cases hxH : x ∈ H
      · exact a hxH
      · have : x = h := by rcases List.mem_cons.1 hx with e | e; exact e; exact absurd e hxH
        subst this
        rw [(b hxH).1, (b hxH).2]
        simp [initHead, upd_self]
    · rw [List.mem_cons, not_or] at hx
      rw [(b hx.2).1, (b hx.2).2]
      simp [initHead, upd_ne _ _ hx.1]

theorem Reach.inv {H : List Ptr} {m : M} {c : Ptr → List Ptr} (h : Reach H m c) : Inv H m c := by
  induction h with
  | init m hnd hz ho =>
    refine ⟨hnd, hz, ?_, ?_, ?_, by simp, by simp⟩
    · intro h hh
      obtain ⟨a, _, _⟩ := init_spec H m h
      exact ⟨⟨(a hh).1, (a hh).2, trivial⟩, by simp⟩
    · intro h hh h' hh' hne x hx
      simp at hx ⊢
      rw [hx]; exact hne
    · intro x hx
      rw [(init_spec H m x).2.2, ho] at hx
      exact absurd rfl hx
  | step _ hs e ih =>
    obtain ⟨m', e', hI⟩ := exec_spec ih hs
    rw [e] at e'
    simp only [Option.some.injEq, Prod.mk.injEq, and_true] at e'
    exact e' ▸ hI

theorem iter_spec {m : M} {h : Ptr} : ∀ (B : List Ptr) (y : Ptr) (Q : List Ptr) (fuel : Nat), B ++ [h] = y :: Q →
    Linked m (y :: Q) → h ∉ B → B.length ≤ fuel → iter m h fuel y = some B
  | [], y, Q, fuel, e, _, _, _ => by
      simp at e
      cases fuel <;> simp [iter, e.1]
  | b :: B, y, Q, fuel, e, hl, hn, hf => by
      simp only [List.cons_append, List.cons.injEq] at e
      obtain ⟨rfl, e⟩ := e
      obtain ⟨y', Q', e'⟩ : ∃ y' Q', B ++ [h] = y' :: Q' := by
        cases B with
        | nil => exact ⟨h, [], rfl⟩
        | cons b B => exact ⟨b, B ++ [h], rfl⟩
      rw [List.mem_cons, not_or] at hn
      cases fuel with
      | zero => simp at hf
      | succ fuel =>
        rw [iter, if_neg (Ne.symm hn.1)]
        rw [← e, e'] at hl
        rw [hl.1, iter_spec B y' Q' fuel e' hl.2.2 hn.2 (by simp at hf; exact hf)]
        rfl

theorem riter_spec {m : M} {h : Ptr} : ∀ (n : Nat) (A : List Ptr) (P : List Ptr) (x : Ptr) (fuel : Nat), A.length = n →
    h :: A = P ++ [x] → Linked m (P ++ [x]) → h ∉ A → A.length ≤ fuel → riter m h fuel x = some A.reverse := by
  intro n
  induction n with
  | zero =>
    intro A P x fuel hA e _ _ _
    have : A = [] := List.length_eq_zero_iff.1 hA
    subst this
    have : x = h := by
      cases P with
      | nil => simp at e; exact e.symm
      | cons p P => simp at e
    cases fuel <;> simp [riter, this]
  | succ n ih =>
    intro A P x fuel hA e hl hn hf
    obtain ⟨A', a, rfl⟩ : ∃ A' a, A = A' ++ [a] := ⟨A.dropLast, A.getLast (by intro h; simp [h] at hA),
      (List.dropLast_concat_getLast _).symm⟩
    rw [← List.cons_append] at e
    obtain ⟨e1, e2⟩ := List.append_inj' e (by simp)
    simp only [List.cons.injEq, and_true] at e2
    subst e2
    obtain ⟨P', x', e'⟩ : ∃ P' x', h :: A' = P' ++ [x'] := ⟨(h :: A').dropLast, (h :: A').getLast (by simp),
      (List.dropLast_concat_getLast (by simp)).symm⟩
    simp only [List.mem_append, List.mem_singleton, not_or] at hn
    rw [← e1, e', List.append_assoc] at hl
    have hl2 := (Linked.split m x' [a] P').1 hl
    cases fuel with
    | zero => simp at hf
    | succ fuel =>
      rw [riter, if_neg (Ne.symm hn.2), hl2.2.2.1, ih A' P' x' fuel (by simpa using hA) e' hl2.1 hn.1 (by simp at hf; exact hf)]
      simp

end Verif.LinkedList
