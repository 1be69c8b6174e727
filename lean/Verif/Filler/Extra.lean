import Verif.Filler.Props
/-! Facts about the filler's steps as the page heap uses them: which trackers it refers to, where their hugepages are,
and that a hugepage handed back is empty. -/
namespace Verif.Filler
open Verif.Bitmap Verif.RangeTracker Verif.PageTracker Verif.HintedLists

variable {N : Nat} {mode : Bool}

theorem removeFrom_tr {s s' : F} {id : Nat} (e : removeFrom N mode s id = some s') : s'.tr = s.tr := by
  unfold removeFrom at e
  simp only [] at e
  repeat' split at e
  all_goals first
    | (cases e; done)
    | (cases e; rfl)

theorem addTo_free {s s' : F} {id : Nat} (e : addTo N mode s id = some s') : (s'.tr id).free = (s.tr id).free := by
  unfold addTo at e
  simp only [] at e
  repeat' split at e
  all_goals first
    | (cases e; done)
    | (cases e; rfl)
    | (cases e; simp [F.setTr, upd])

theorem putBack_free {s s' : F} {id : Nat} {r : PutRes} (e : putBack N mode s id = some (s', r)) :
    (s'.tr id).free = (s.tr id).free := by
  unfold putBack at e
  split at e
  · cases e
  · next s1 e1 => cases e; exact addTo_free e1

theorem putEmpty_free {s s' : F} {id : Nat} {r : PutRes} (e : putEmpty N mode s id = some (s', r)) :
    (s'.tr id).free = (s.tr id).free := by
  unfold putEmpty at e
  simp only [] at e
  split at e
  · split at e
    · cases e
    · split at e
      · cases e; simp [F.setTr, upd]
      · rw [putBack_free e]; simp [F.setTr, upd]
  · split at e
    · cases e; rfl
    · exact putBack_free e

theorem putReleased_free {s s' : F} {id : Nat} {r : PutRes} (e : putReleased N mode s id = some (s', r)) :
    (s'.tr id).free = (s.tr id).free := by
  unfold putReleased at e
  simp only [] at e
  repeat' split at e
  all_goals first
    | (cases e; done)
    | (cases e; rfl)
    | exact putEmpty_free e
    | (have := putEmpty_free e; exact this)

theorem put_free {s s' : F} {id p n objs : Nat} {r : PutRes} (e : put N mode s id p n objs = some (s', r)) :
    ∃ t, PageTracker.put N (s.tr id) p n objs = some t ∧ (s'.tr id).free = t.free := by
  unfold put at e
  split at e
  · cases e
  · next s1 e1 =>
    have htr := removeFrom_tr e1
    rw [htr] at e
    split at e
    · next t a e2 e3 =>
      refine ⟨t, e2, ?_⟩
      simp only [] at e
      split at e
      · split at e
        · split at e
          · cases e
          · rw [putReleased_free e]; simp [F.setTr, upd]
        · cases e
      · rw [putBack_free e]; simp [F.setTr, upd]
    · cases e

/-- The trackers the filler refers to. -/
def ids (s : F) (g : Gh) : List Nat := g.held ++ (g.flight.map Prod.fst ++ s.freed)

theorem mem_ids {s : F} {g : Gh} {id : Nat} : id ∈ ids s g ↔ owned s g id := by
  unfold ids owned
  rw [List.mem_append, List.mem_append]

theorem ids_nodup (hN : 2 ≤ N) {s : F} {g : Gh} (h : Reach N mode s g) : (ids s g).Nodup := (h.k hN).1.nd

theorem live_mem (hN : 2 ≤ N) {s : F} {g : Gh} (h : Reach N mode s g) {id : Nat} {a : Alloc} (ha : a ∈ g.live id) :
    id ∈ g.held ∧ 0 < a.n ∧ a.i + a.n ≤ N := by
  have hk := (h.k hN).1
  have hid : id ∈ g.held := (hk.held id).2 (by intro e; rw [e] at ha; simp at ha)
  have := (hk.g hid).good.inside _ (List.mem_map.2 ⟨a, ha, rfl⟩)
  exact ⟨hid, this.1, this.2⟩

theorem live_disjoint (hN : 2 ≤ N) {s : F} {g : Gh} (h : Reach N mode s g) (id : Nat) :
    (g.live id).Pairwise (fun a b => ∀ j, a.Has j → ¬ b.Has j) := by
  have hk := (h.k hN).1
  by_cases hid : id ∈ g.held
  · have := (hk.g hid).good.disjoint
    rw [List.pairwise_map] at this
    refine List.Pairwise.imp_of_mem ?_ this
    intro a b ha hb hd j h1 h2
    exact hd j ⟨h1, h2⟩
  · rw [hk.empty hid]; exact List.Pairwise.nil

/-- A live run is returned. -/
theorem put_shape (hN : 2 ≤ N) {s : F} {g : Gh} (h : Reach N mode s g) {id : Nat} {a : Alloc} (ha : a ∈ g.live id) :
    ∃ s' r g', put N mode s id ((s.tr id).loc * N + a.i) a.n a.objs = some (s', r) ∧ Reach N mode s' g' ∧
      g'.treat = g.treat ∧ (∀ x, x ≠ id → g'.live x = g.live x) ∧ (a :: g'.live id).Perm (g.live id) ∧
      (∀ x, (s'.tr x).loc = (s.tr x).loc) ∧
      ((∃ rest, r = .wait rest ∧ (ids s' g').Perm (ids s g) ∧ g'.flight = (id, rest) :: g.flight) ∨
       (r = .done none ∧ (ids s' g').Perm (ids s g) ∧ g'.flight = g.flight) ∨
       (r = .done (some id) ∧ (ids s g).Perm (id :: ids s' g') ∧ g'.flight = g.flight ∧ (s'.tr id).free.nused = 0)) := by
  have hk := (h.k hN).1
  obtain ⟨A, B, hl⟩ := List.append_of_mem ha
  have hid : id ∈ g.held := (hk.held id).2 (by rw [hl]; simp)
  obtain ⟨s', r, e, hr, c1, c2, c3, hx, hloc⟩ := put_exact hN h hl
  have hG : G N (s.tr id) (A ++ a :: B) := by rw [← hl]; exact hk.g hid
  obtain ⟨t, et, hfree⟩ := put_free e
  obtain ⟨t', et', hG', -⟩ := put_spec hG
  have htt : t = t' := by
    have : some t = some t' := et.symm.trans et'
    cases this; rfl
  subst htt
  have hu : upd g.live id (A ++ B) id = A ++ B := by simp [upd]
  refine ⟨s', r, _, e, hr, rfl, fun x hx => upd_ne _ _ hx, ?_, ?_, ?_⟩
  · show (a :: upd g.live id (A ++ B) id).Perm _
    rw [hu, hl]; exact List.perm_middle.symm
  · intro x
    by_cases ex : x = id
    · subst ex; exact hloc
    · rw [hx x ex]
  · have hrel : relPages N (s.tr id) ≤ N := by
      unfold relPages
      have := List.countP_le_length (p := bitAt (s.tr id).rel) (l := List.range N)
      rw [List.length_range] at this; exact this
    by_cases hne : A ++ B = []
    · have hheld : (Gh.put g id (A ++ B) r).held = g.held.erase id := by
        show (if A ++ B = [] then _ else _) = _
        rw [if_pos hne]
      have hpe := (List.perm_cons_erase hid)
      by_cases hw : 0 < relPages N (s.tr id) ∧ relPages N (s.tr id) < N
      · obtain ⟨er, ef⟩ := c2 hne hw.1 hw.2
        subst er
        refine Or.inl ⟨_, rfl, ?_, rfl⟩
        unfold ids
        rw [hheld, ef]
        show (g.held.erase id ++ (id :: g.flight.map Prod.fst ++ s.freed)).Perm _
        have h1 : (g.held.erase id ++ (id :: g.flight.map Prod.fst ++ s.freed)).Perm
            ((id :: g.held.erase id) ++ (g.flight.map Prod.fst ++ s.freed)) := List.perm_middle
        exact h1.trans (hpe.symm.append_right _)
      · obtain ⟨d1, d2⟩ := c3 hne (by omega)
        by_cases hp : Pinned g id
        · obtain ⟨er, ef⟩ := d2 hp
          subst er
          refine Or.inr (Or.inl ⟨rfl, ?_, rfl⟩)
          unfold ids
          rw [hheld, ef]
          show (g.held.erase id ++ (g.flight.map Prod.fst ++ id :: s.freed)).Perm _
          have h0 : (g.flight.map Prod.fst ++ id :: s.freed).Perm (id :: (g.flight.map Prod.fst ++ s.freed)) := List.perm_middle
          have h1 : (g.held.erase id ++ (id :: (g.flight.map Prod.fst ++ s.freed))).Perm
              ((id :: g.held.erase id) ++ (g.flight.map Prod.fst ++ s.freed)) := List.perm_middle
          exact ((h0.append_left _).trans h1).trans (hpe.symm.append_right _)
        · obtain ⟨er, ef, -⟩ := d1 hp
          subst er
          refine Or.inr (Or.inr ⟨rfl, ?_, rfl, ?_⟩)
          · unfold ids
            rw [hheld, ef]
            show (g.held ++ (g.flight.map Prod.fst ++ s.freed)).Perm (id :: (g.held.erase id ++ (g.flight.map Prod.fst ++ s.freed)))
            exact hpe.append_right _
          · rw [hfree]
            rw [hne] at hG'
            exact (empty_counts hG').1
    · obtain ⟨er, ef⟩ := c1 hne
      subst er
      refine Or.inr (Or.inl ⟨rfl, ?_, rfl⟩)
      unfold ids
      rw [ef]
      show ((if A ++ B = [] then g.held.erase id else g.held) ++ (g.flight.map Prod.fst ++ s.freed)).Perm _
      rw [if_neg hne]

/-- The kernel answers a waiting `Put`. -/
theorem answer_shape (hN : 2 ≤ N) {s : F} {g : Gh} (h : Reach N mode s g) {A B : List (Nat × Nat)} {id rest : Nat}
    (hf : g.flight = A ++ (id, rest) :: B) (ok : Bool) :
    ∃ s' r, putAnswer N mode s id rest ok = some (s', .done r) ∧ Reach N mode s' { g with flight := A ++ B } ∧
      (∀ x, (s'.tr x).loc = (s.tr x).loc) ∧
      ((r = none ∧ (ids s' { g with flight := A ++ B }).Perm (ids s g)) ∨
       (r = some id ∧ (ids s g).Perm (id :: ids s' { g with flight := A ++ B }) ∧ (s'.tr id).free.nused = 0)) := by
  have hk := (h.k hN).1
  have hmem : id ∈ fl g := by unfold fl; rw [hf]; simp
  have how : owned s g id := Or.inr (Or.inl hmem)
  obtain ⟨hlive, -, s', r, e, hr, d1, d2, -, hx⟩ := putAnswer_exact hN h hf ok
  obtain ⟨s2, e2, -, -, -, -, hloc⟩ := putAnswer_spec hk hf ok
  rw [e] at e2
  cases e2
  have hG : G N (s.tr id) [] := by have := hk.gd id how; rw [hlive] at this; exact this
  have hfree : (s'.tr id).free = (s.tr id).free := by
    have := putEmpty_free (show putEmpty N mode _ id = some (s', _) from e)
    rw [this]; cases ok <;> rfl
  refine ⟨s', _, e, hr, ?_, ?_⟩
  · intro x
    by_cases ex : x = id
    · subst ex; exact hloc
    · rw [hx x ex]
  · have h0 : (g.held ++ (g.flight.map Prod.fst ++ s.freed)).Perm (id :: (g.held ++ ((A ++ B).map Prod.fst ++ s.freed))) := by
      rw [hf, List.perm_iff_count]
      intro x
      simp only [List.map_append, List.map_cons, List.count_append, List.count_cons]
      omega
    by_cases hp : Pinned g id
    · obtain ⟨er, ef⟩ := d2 hp
      refine Or.inl ⟨er, ?_⟩
      unfold ids
      rw [ef]
      refine List.Perm.trans ?_ h0.symm
      rw [List.perm_iff_count]
      intro x
      simp only [List.map_append, List.count_append, List.count_cons]
      omega
    · obtain ⟨er, ef, -⟩ := d1 hp
      refine Or.inr ⟨er, ?_, ?_⟩
      · unfold ids; rw [ef]; exact h0
      · rw [hfree]; exact (empty_counts hG).1

/-- A hugepage is fetched after a treatment. -/
theorem fetch_shape (hN : 2 ≤ N) {s : F} {g : Gh} (h : Reach N mode s g) (ht : g.treat = none) :
    Reach N mode (fetchFreed s).1 g ∧ (fetchFreed s).1.tr = s.tr ∧
    (((fetchFreed s).2 = none ∧ (fetchFreed s).1 = s) ∨
     ∃ id, (fetchFreed s).2 = some id ∧ (ids s g).Perm (id :: ids (fetchFreed s).1 g) ∧ (s.tr id).free.nused = 0) := by
  have hk := (h.k hN).1
  obtain ⟨h1, h2, h3, h4⟩ := fetch_exact hN h ht
  refine ⟨h1, h4, ?_⟩
  cases hf : s.freed with
  | nil =>
    left
    unfold fetchFreed; rw [hf]; exact ⟨rfl, rfl⟩
  | cons id l =>
    right
    have e2 : (fetchFreed s).2 = some id := by unfold fetchFreed; rw [hf]
    have e1 : (fetchFreed s).1.freed = l := by unfold fetchFreed; rw [hf]
    refine ⟨id, e2, ?_, ?_⟩
    · unfold ids
      rw [e1, hf, List.perm_iff_count]
      intro x
      simp only [List.count_append, List.count_cons]
      omega
    · have how : owned s g id := Or.inr (Or.inr (by rw [hf]; simp))
      have hG := hk.gd id how
      rw [(h3 id e2).2.1] at hG
      exact (empty_counts hG).1

theorem treatBegin_shape (hN : 2 ≤ N) {s : F} {g : Gh} (h : Reach N mode s g) (ht : g.treat = none) {A B : List Nat}
    (hA : ∀ id ∈ A, id ∈ g.held) (hB : ∀ id ∈ B, id ∈ g.held) (hnd : B.Nodup) :
    Reach N mode (treatBegin s A B) { g with treat := some (A, B) } ∧
    (∀ x, ((treatBegin s A B).tr x).loc = (s.tr x).loc) ∧ (treatBegin s A B).freed = s.freed := by
  have hk := (h.k hN).1
  obtain ⟨-, h2, h3⟩ := treatBegin_spec hk ht (A := A) (B := B) (fun x hx => Or.inl (hA x hx)) (fun x hx => Or.inl (hB x hx))
  refine ⟨Reach.treatBegin A B h ht hA hB hnd, ?_, h3⟩
  intro x
  obtain ⟨p, e⟩ := h2 x
  rw [e]

end Verif.Filler
