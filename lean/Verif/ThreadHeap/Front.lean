import Verif.ThreadCache.Props
/-!
What the steps of the per-thread caches mean for the layer below them, in the form in which the composition needs it.
-/
namespace Verif.ThreadCache

variable {cfg : Cfg}

/-- The request the owner of cache `id` has put to the transfer cache: class and number of objects
(thread_cache.cc:95-102). -/
def W.asks (w : W) (id : Nat) : Option (Nat × Nat) :=
  match (find w.heaps id).map Heap.st with
  | some (.fetch k n) => some (k, n)
  | _ => none

/-- Objects a step takes from users, and gives to users. -/
def Ev.freed : Ev → List (Nat × Nat)
  | .free _ k o | .direct k o => [(k, o)]
  | _ => []

def Out.returned : Out → List (Nat × Nat)
  | .allocated k (some o) => [(k, o)]
  | _ => []

/-! ### The states of the other caches -/

theorem find_put (l : List Heap) (h' : Heap) (id : Nat) :
    find (put l h') id = if id = h'.id then (find l id).map fun _ => h' else find l id := by
  induction l with
  | nil => simp [put, find]
  | cons a r ih =>
    show find ((if a.id = h'.id then h' else a) :: put r h') id = _
    by_cases h1 : a.id = h'.id
    · rw [if_pos h1]
      unfold find
      by_cases h2 : id = h'.id
      · rw [if_pos h2.symm, if_pos h2, if_pos (h1.trans h2.symm)]; rfl
      · rw [if_neg (fun h => h2 h.symm), if_neg h2, if_neg (fun h => h2 (h.symm.trans h1)), ih, if_neg h2]
    · rw [if_neg h1]
      unfold find
      by_cases h2 : a.id = id
      · rw [if_pos h2, if_pos h2]
        by_cases h3 : id = h'.id
        · exact absurd (h2.trans h3) h1
        · rw [if_neg h3]
      · rw [if_neg h2, if_neg h2, ih]

theorem find_map (l : List Heap) (f : Heap → Heap) (hf : ∀ h, (f h).id = h.id) (id : Nat) :
    find (l.map f) id = (find l id).map f := by
  induction l with
  | nil => rfl
  | cons a r ih =>
    show find (f a :: r.map f) id = _
    unfold find
    rw [hf]
    by_cases h : a.id = id
    · rw [if_pos h, if_pos h]; rfl
    · rw [if_neg h, if_neg h, ih]

theorem find_filter (l : List Heap) {id x : Nat} (h : id ≠ x) : find (l.filter fun h' => h'.id ≠ x) id = find l id := by
  induction l with
  | nil => rfl
  | cons a r ih =>
    by_cases h1 : a.id = x
    · rw [List.filter_cons_of_neg (by simp [h1]), ih]
      conv => rhs; unfold find
      rw [if_neg fun h' => h (h'.symm.trans h1)]
    · rw [List.filter_cons_of_pos (by simp [h1])]
      unfold find
      rw [ih]

/-- The state of the owner of cache `id`. -/
def stOf (l : List Heap) (id : Nat) : Option St := (find l id).map Heap.st

theorem stOf_put_ne {l : List Heap} {h' : Heap} {id : Nat} (h : id ≠ h'.id) : stOf (put l h') id = stOf l id := by
  unfold stOf; rw [find_put, if_neg h]

/-- Raising a limit moves nobody. -/
theorem increase_st {w w' : W} {me b : Nat} (h : w.increase cfg me = some (w', b)) (id : Nat) : stOf w'.heaps id = stOf w.heaps id := by
  have loop : ∀ (n : Nat) (next : Option Nat) (l' : List Heap) (next' : Option Nat) (b : Nat),
      stealLoop cfg w.heaps me n next = some (l', next', b) → stOf l' id = stOf w.heaps id := by
    intro n
    induction n with
    | zero => intro next l' next' b h; cases h; rfl
    | succ n ih =>
      intro next l' next' b h
      unfold stealLoop at h
      split at h
      · cases h
      · next cur hcur =>
        split at h
        · cases h
        · next t ht =>
          split at h
          · exact ih _ _ _ _ h
          · split at h
            · cases h
            · cases h
              unfold stOf
              rw [find_put]
              split
              · next he =>
                have : id = cur := he.trans (find_mem ht).1
                subst this
                rw [ht]; rfl
              · rfl
  unfold W.increase at h
  split at h
  · cases h; rfl
  · split at h
    · cases h
    · next heaps next' b' hl =>
      cases h
      exact loop _ _ _ _ _ hl

/-- A step of the owner of `h` moves nobody else. -/
theorem stepH_st {w w' : W} {h : Heap} {out : Out} (hs : stepH cfg w h = some (w', out)) {id : Nat} (hne : id ≠ h.id) :
    stOf w'.heaps id = stOf w.heaps id := by
  have rl : ∀ {k n m ret x}, h.relStep cfg k n m ret = some x → x.1.id = h.id := by
    intro k n m ret x hx
    unfold Heap.relStep at hx
    split at hx
    · cases hx
    · split at hx
      · cases hx
      · split at hx
        · cases hx; rfl
        · split at hx
          · cases hx
          · cases hx; cases ret <;> rfl
  unfold stepH at hs
  split at hs
  · cases hs; rfl
  · cases hs; rfl
  · split at hs <;> (cases hs; exact stOf_put_ne hne)
  · split at hs <;> (cases hs; exact stOf_put_ne hne)
  · obtain ⟨x, hx, he⟩ := Option.map_eq_some_iff.1 hs
    cases he
    exact stOf_put_ne (by rw [rl hx]; exact hne)
  · split at hs
    · cases hs; exact stOf_put_ne hne
    · split at hs <;> (cases hs; exact stOf_put_ne hne)
  · split at hs
    · cases hs
    · next w1 b hb =>
      cases hs
      exact (stOf_put_ne (h' := { h.go .idle with max := h.max + b }) hne).trans (increase_st hb id)
  · split at hs
    · cases hs; exact stOf_put_ne hne
    · split at hs <;> (cases hs; exact stOf_put_ne hne)
  · cases hs
    unfold stOf
    show (find (w.heaps.filter fun h' => h'.id ≠ h.id) id).map _ = _
    rw [find_filter _ hne]

/-- The answer of the transfer cache moves nobody else. -/
theorem fetched_st {w w' : W} {h : Heap} {k : Nat} {l : List Nat} {out : Out} (hs : w.fetched cfg h k l = some (w', out)) {id : Nat}
    (hne : id ≠ h.id) : stOf w'.heaps id = stOf w.heaps id := by
  unfold W.fetched at hs
  split at hs
  · cases hs; exact stOf_put_ne hne
  · split at hs
    · cases hs
    · cases hs; exact stOf_put_ne hne

/-- A thread that waits for the transfer cache stays where it is until it has its answer. -/
theorem waits {w w' : W} {e : Ev} {out : Out} (hp : Pre cfg w e) (hs : step cfg w e = some (w', out)) {id : Nat} {r : Nat × Nat}
    (ha : w.asks id = some r) (he : ∀ l, e ≠ .fetched id l) : w'.asks id = some r := by
  have hst : ∃ t, find w.heaps id = some t ∧ ∃ k n, t.st = .fetch k n := by
    unfold W.asks at ha
    split at ha
    · next k n h =>
      obtain ⟨t, h1, h2⟩ := Option.map_eq_some_iff.1 h
      exact ⟨t, h1, k, n, h2⟩
    · cases ha
  obtain ⟨t, hf, k0, n0, hst⟩ := hst
  suffices h : stOf w'.heaps id = stOf w.heaps id by
    unfold W.asks
    unfold W.asks at ha
    unfold stOf at h
    rw [h]; exact ha
  have idle : ∀ {j : Nat} {t' : Heap}, find w.heaps j = some t' → t'.st = .idle → id ≠ t'.id := by
    rintro j t' h1 h2 h3
    have := (find_mem h1).1
    rw [← h3] at this
    rw [← this, hf] at h1
    cases h1
    rw [hst] at h2; cases h2
  cases e with
  | create j =>
    obtain ⟨w1, h1, h2⟩ := Option.map_eq_some_iff.1 hs
    cases h2
    have hj : id ≠ j := by
      rintro rfl
      have : find w.heaps id = none := hp
      rw [hf] at this; cases this
    have h1 : w.newHeap cfg j = some w' := h1
    unfold W.newHeap at h1
    split at h1
    · cases h1
    · next w2 b hb =>
      dsimp only at h1
      rw [← increase_st hb id]
      generalize (if b = 0 then (w2.unclaimed - (cfg.kMin : Int), cfg.kMin) else (w2.unclaimed, b)) = ub at h1
      split at h1
      · cases h1
      · cases h1
        unfold stOf
        conv => lhs; unfold find
        rw [if_neg fun h => hj h.symm]
  | malloc j k =>
    obtain ⟨⟨t', h1, h2⟩, -⟩ := hp
    have hne := idle h1 h2
    have hs : ((find w.heaps j).bind fun h => w.allocate cfg h k) = some (w', out) := hs
    rw [h1] at hs
    have hs : w.allocate cfg t' k = some (w', out) := hs
    unfold W.allocate at hs
    split at hs
    · split at hs
      · cases hs
      · cases hs; exact stOf_put_ne hne
    · split at hs
      · cases hs; exact stOf_put_ne hne
      · cases hs
  | free j k o =>
    obtain ⟨⟨t', h1, h2⟩, -⟩ := hp
    have hne := idle h1 h2
    have hs : ((find w.heaps j).map fun h => w.deallocate cfg h k o) = some (w', out) := hs
    rw [h1] at hs
    have hs : some (w.deallocate cfg t' k o) = some (w', out) := hs
    unfold W.deallocate at hs
    dsimp only at hs
    split at hs <;> (cases hs; exact stOf_put_ne hne)
  | act j =>
    obtain ⟨t', h1⟩ := hp
    have hs : ((find w.heaps j).bind fun h => stepH cfg w h) = some (w', out) := hs
    rw [h1] at hs
    have hs : stepH cfg w t' = some (w', out) := hs
    by_cases hne : id = t'.id
    · have := (find_mem h1).1
      rw [← hne] at this
      rw [← this, hf] at h1
      cases h1
      unfold stepH at hs
      rw [hst] at hs
      cases hs; rfl
    · exact stepH_st hs hne
  | fetched j l =>
    obtain ⟨t', k, n, h1, h2, -⟩ := hp
    have hs : (match find w.heaps j with
      | some h => match h.st with | .fetch k _ => w.fetched cfg h k l | _ => none
      | none => none) = some (w', out) := hs
    rw [h1] at hs
    dsimp only at hs
    rw [h2] at hs
    refine fetched_st hs fun h => he l ?_
    rw [h, (find_mem h1).1]
  | delete j =>
    obtain ⟨t', h1, h2⟩ := hp
    have hs : ((find w.heaps j).map fun h => (w.put (h.go (.clean 0)), Out.tau)) = some (w', out) := hs
    rw [h1] at hs
    cases hs
    have hne := idle h1 h2
    exact stOf_put_ne (h' := t'.go (.clean 0)) hne
  | direct k o => cases hs; rfl
  | resize n scale =>
    have hs : some (w.resize cfg n scale, Out.resized) = some (w', out) := hs
    cases hs
    have hif : ∀ (c : Prop) [Decidable c] (a b : List Heap), stOf a id = stOf b id → stOf (if c then a else b) id = stOf b id := by
      intro c _ a b h; split
      · exact h
      · rfl
    unfold W.resize
    dsimp only
    refine hif _ _ _ ?_
    unfold stOf
    · rw [find_map (f := fun h => { h with max := min (scale h.id) h.max }) (hf := fun _ => rfl), Option.map_map]; rfl

/-- Batches given to the transfer cache have admissible lengths. -/
theorem toBacking_len {w w' : W} (hc : cfg.OK) (hk : cfg.kMin < 2 ^ 63) (h : Reach cfg w) {e : Ev} (hp : Pre cfg w e) {k : Nat} {l : List Nat}
    (hs : step cfg w e = some (w', .toBacking k l)) : l ≠ [] ∧ l.length ≤ kMaxObjectsToMove := by
  obtain ⟨h1, -, h2⟩ := (batches cfg hc hk w h).2 e w' k l hs hp
  exact ⟨h1, h2⟩

theorem asks_iff {w : W} {id k n : Nat} : w.asks id = some (k, n) ↔ ∃ t, find w.heaps id = some t ∧ t.st = .fetch k n := by
  unfold W.asks
  constructor
  · intro ha
    split at ha
    · next k' n' h =>
      cases ha
      obtain ⟨t, h1, h2⟩ := Option.map_eq_some_iff.1 h
      exact ⟨t, h1, h2⟩
    · cases ha
  · rintro ⟨t, h1, h2⟩
    rw [h1]
    simp only [Option.map_some, h2]

/-- What a waiting thread asks for: objects of a class in use, at least one, at most a batch. -/
theorem asks_ok {w : W} (hc : cfg.OK) (hk : cfg.kMin < 2 ^ 63) (h : Reach cfg w) {id k n : Nat} (ha : w.asks id = some (k, n)) :
    cfg.Used k ∧ 0 < n ∧ n ≤ kMaxObjectsToMove := by
  obtain ⟨t, h1, h2⟩ := asks_iff.1 ha
  have hb := (batches cfg hc hk w h).1 t (find_mem h1).2 k n h2
  have := ((h.inv hc hk).each t (find_mem h1).2).st
  unfold StOK at this
  rw [h2] at this
  exact ⟨this.1, hb.1, hb.2.2⟩

/-- Objects have classes in use. -/
theorem objects_used {w : W} (hc : cfg.OK) (hk : cfg.kMin < 2 ^ 63) (h : Reach cfg w) {k o : Nat} (ho : (k, o) ∈ w.objects cfg) : cfg.Used k := by
  have hi := h.inv hc hk
  unfold W.objects at ho
  rcases List.mem_append.1 ho with ho | ho
  · exact hi.user _ ho
  · obtain ⟨t, ht, ho⟩ := List.mem_flatMap.1 ho
    unfold Heap.objects at ho
    obtain ⟨j, -, ho⟩ := List.mem_flatMap.1 ho
    obtain ⟨o', h1, h2⟩ := List.mem_map.1 ho
    cases h2
    exact (hi.each t ht).used k (List.ne_nil_of_mem h1)

theorem user_within (w : W) (x : Nat × Nat) : w.user.count x ≤ (w.objects cfg).count x := by
  unfold W.objects
  rw [List.count_append]; omega

/-- Users have exactly what they were given and have not freed. -/
theorem user_perm {w w' : W} {e : Ev} (hp : Pre cfg w e) {out : Out} (hs : step cfg w e = some (w', out)) :
    (e.freed ++ w'.user).Perm (out.returned ++ w.user) := by
  have h := user_exact cfg w e w' out hs
  have go : ∀ x, x ∈ w.user → w'.user = out.returned ++ w.user.erase x → ([x] ++ w'.user).Perm (out.returned ++ w.user) := by
    intro x hx he
    rw [he]
    exact (List.perm_append_comm_assoc [x] _ _).trans ((List.perm_cons_erase hx).symm.append_left _)
  cases e with
  | free j k o => exact go _ hp.2 (by refine h.trans ?_; rcases out with _ | ⟨_, _ | _⟩ | _ | _ | _ | _ | _ <;> rfl)
  | direct k o => exact go _ hp (by refine h.trans ?_; rcases out with _ | ⟨_, _ | _⟩ | _ | _ | _ | _ | _ <;> rfl)
  | _ =>
    have h : w'.user = out.returned ++ w.user := by
      refine h.trans ?_; rcases out with _ | ⟨_, _ | _⟩ | _ | _ | _ | _ | _ <;> rfl
    rw [h]; exact .refl _

/-- The answer is accepted; exactly these objects enter. -/
theorem fetched_step {w : W} (hc : cfg.OK) (hk : cfg.kMin < 2 ^ 63) (h : Reach cfg w) {id k n : Nat} {l : List Nat}
    (ha : w.asks id = some (k, n)) (hl : l.length ≤ n) (hn : l.Nodup) (hf : ∀ o ∈ l, (k, o) ∉ w.objects cfg) :
    Pre cfg w (.fetched id l) ∧ ∃ w' out, step cfg w (.fetched id l) = some (w', out) ∧ out.leaves = [] ∧
      (∀ k l, out ≠ .toBacking k l) ∧ (∀ id', id' ≠ id → w'.asks id' = w.asks id') ∧ Ev.enters w (.fetched id l) = pairs k l := by
  obtain ⟨t, h1, h2⟩ := asks_iff.1 ha
  have hp : Pre cfg w (.fetched id l) := ⟨t, k, n, h1, h2, hl, hn, hf⟩
  obtain ⟨w', out, hs⟩ := step_defined cfg hc hk w h _ hp
  have hs' : (match find w.heaps id with
      | some h => match h.st with | .fetch k _ => w.fetched cfg h k l | _ => none
      | none => none) = some (w', out) := hs
  rw [h1] at hs'
  dsimp only at hs'
  rw [h2] at hs'
  refine ⟨hp, w', out, hs, ?_, ?_, fun id' hne => ?_, ?_⟩
  · dsimp only at hs'
    unfold W.fetched at hs'
    split at hs'
    · cases hs'; rfl
    · split at hs'
      · cases hs'
      · cases hs'; rfl
  · dsimp only at hs'
    unfold W.fetched at hs'
    split at hs'
    · cases hs'; intro k l h; cases h
    · split at hs'
      · cases hs'
      · cases hs'; intro k l h; cases h
  · have := fetched_st hs' (id := id') (by rw [(find_mem h1).1]; exact hne)
    unfold stOf at this
    unfold W.asks
    rw [this]
  · show (match find w.heaps id with
      | some h => match h.st with | .fetch k _ => pairs k l | _ => []
      | none => []) = _
    rw [h1]; dsimp only; rw [h2]

end Verif.ThreadCache
