import Verif.Span.Lemmas2
namespace Verif.Span
open Verif.Bitmap (Word bitAt WF)

theorem obj_word {g : Geo} (hg : g.OK) (i : Nat) : idxToPtr g.start i / 2 = baseOf g + 4 * i := by
  have := hg.start8
  unfold idxToPtr baseOf
  rw [Nat.shiftLeft_eq]; omega

theorem lim_eq {g : Geo} (hg : g.OK) : limOf g = 4 * (g.size / 8) - 1 := by
  have := hg.size_step; unfold limOf; omega

theorem ptr_idx {g : Geo} (hg : g.OK) (hl : useBitmap g = false) {p : Nat} (hp : IsObj g p) :
    idxToPtr g.start (ptrToIdx g p) = p ∧ ptrToIdx g p ≠ kListEnd ∧ IsIdx (g.size / 8) (ptrToIdx g p) := by
  obtain ⟨k, hk, rfl⟩ := hp
  obtain ⟨e, hlt⟩ := ptrToIdx_obj hg hl hk
  rw [e]
  refine ⟨idxToPtr_obj hg k, ?_, k, rfl⟩
  unfold kListEnd; omega

theorem listPushOne_eq {g : Geo} (hg : g.OK) (hl : useBitmap g = false) {p : Nat} (hp : IsObj g p)
    (s : St) (w : Mem) : listPushOne g g.start s w p =
      ({ s with freelist := (pushCore (baseOf g) (limOf g) s.freelist s.embed w (ptrToIdx g p)).1,
                embed := (pushCore (baseOf g) (limOf g) s.freelist s.embed w (ptrToIdx g p)).2.1 },
        (pushCore (baseOf g) (limOf g) s.freelist s.embed w (ptrToIdx g p)).2.2) := by
  have e : p / 2 = baseOf g + 4 * ptrToIdx g p := by
    rw [← obj_word hg, (ptr_idx hg hl hp).1]
  have elim : g.size / 2 - 1 = limOf g := rfl
  unfold listPushOne pushCore
  rw [elim]
  split
  · rw [obj_word hg]
  · rw [e]

theorem listPushLoop_eq {g : Geo} (hg : g.OK) (hl : useBitmap g = false) :
    ∀ (ps : List Nat) (_ : ∀ p ∈ ps, IsObj g p) (s : St) (w : Mem),
      listPushLoop g g.start s w ps =
        ({ s with
            freelist := (pushAll (baseOf g) (limOf g) s.freelist s.embed w (ps.map (ptrToIdx g))).1,
            embed := (pushAll (baseOf g) (limOf g) s.freelist s.embed w (ps.map (ptrToIdx g))).2.1 },
          (pushAll (baseOf g) (limOf g) s.freelist s.embed w (ps.map (ptrToIdx g))).2.2) := by
  intro ps
  induction ps with
  | nil => intro _ s w; rfl
  | cons p ps ih =>
    intro hps s w
    rw [listPushLoop, listPushOne_eq hg hl (hps p (by simp))]
    simp only []
    rw [ih (fun q hq => hps q (by simp [hq]))]
    simp only [List.map_cons, pushAll]

theorem idxPushLoop_eq {g : Geo} (hg : g.OK) : ∀ (is : List Nat) (_ : ∀ i ∈ is, i ≠ kListEnd)
    (fl em : Nat) (w : Mem), fl ≠ kListEnd →
      idxPushLoop g fl em (idxToPtr g.start fl / 2) w is = pushAll (baseOf g) (limOf g) fl em w is := by
  intro is
  induction is with
  | nil => intro _ fl em w _; rfl
  | cons i is ih =>
    intro hi fl em w hfl
    have elim : g.size / 2 - 1 = limOf g := rfl
    rw [idxPushLoop, pushAll, pushCore, elim]
    by_cases hem : em ≠ limOf g
    · rw [if_pos hem, if_pos ⟨hfl, hem⟩, ih (fun q hq => hi q (by simp [hq])) _ _ _ hfl, obj_word hg]
    · rw [if_neg hem, if_neg (fun h => hem h.2), ih (fun q hq => hi q (by simp [hq])) _ _ _
        (hi i (by simp)), obj_word hg]

/-- The two push overloads agree on the list encoding. -/
theorem listPushIdx_eq {g : Geo} (hg : g.OK) (hl : useBitmap g = false) (s : St) (w : Mem)
    (batch : List Nat) (hb : ∀ p ∈ batch, IsObj g p) :
    listPushIdx g s w (batch.map (ptrToIdx g)) = listPush g s w batch := by
  unfold listPushIdx listPush
  simp only [List.length_map, ← List.map_drop, ← List.map_take]
  have hd : ∀ p ∈ batch.drop (min (g.cacheSize - s.cache.length) batch.length), IsObj g p :=
    fun p hp => hb p (List.mem_of_mem_drop hp)
  generalize hdd : batch.drop (min (g.cacheSize - s.cache.length) batch.length) = d at *
  cases d with
  | nil => rfl
  | cons p ps =>
    simp only [List.map_cons]
    obtain ⟨k, hk, ek⟩ := hd p (by simp)
    have est : p - p % g.pageSize = g.start := by rw [ek]; exact page_start hg hl hk
    rw [est, listPushLoop_eq hg hl _ hd]
    simp only [List.map_cons, pushAll]
    have hne : ∀ i ∈ ps.map (ptrToIdx g), i ≠ kListEnd := by
      intro i hi
      obtain ⟨q, hq, rfl⟩ := List.mem_map.1 hi
      exact (ptr_idx hg hl (hd q (by simp [hq]))).2.1
    have hpne := (ptr_idx hg hl (hd p (by simp))).2.1
    split
    · rename_i hfl
      rw [idxPushLoop_eq hg (ptrToIdx g p :: ps.map (ptrToIdx g))
        (by
          intro i hi
          rcases List.mem_cons.1 hi with rfl | h
          · exact hpne
          · exact hne i h) _ _ _ hfl]
      rfl
    · rename_i hfl
      rw [idxPushLoop_eq hg _ hne _ _ _ hpne, obj_word hg]
      have hfl' : s.freelist = kListEnd := Classical.byContradiction hfl
      have : pushCore (baseOf g) (limOf g) s.freelist s.embed w (ptrToIdx g p) =
          (ptrToIdx g p, 0, wr w (baseOf g + 4 * ptrToIdx g p) kListEnd) := by
        unfold pushCore
        rw [if_neg (fun h => h.1 hfl'), hfl']
      rw [this]

theorem bitmapPushIdx_eq {g : Geo} (r : Nat) : ∀ (batch : List Nat) (ws : List Word),
    bitmapPushIdx g ws (batch.map fun p => bitmapPtrToIdx g p r) =
      bitmapPush g r ws batch := by
  intro batch
  induction batch with
  | nil => intro ws; simp only [List.map_nil, bitmapPushIdx, bitmapPush]
  | cons p ps ih =>
    intro ws
    simp only [List.map_cons, bitmapPushIdx, bitmapPush]
    congr 1
    funext o
    exact ih o.1

theorem pushBatchIdx_eq {g : Geo} (hg : g.OK) (s : St) (w : Mem) (batch : List Nat)
    (hb : ∀ p ∈ batch, IsObj g p) :
    pushBatchIdx g s w (batch.map (objIdx g)) = pushBatch g s w batch (calcReciprocal g.size) := by
  unfold pushBatchIdx pushBatch
  rw [List.length_map]
  cases hu : useBitmap g
  · have : objIdx g = ptrToIdx g := by funext p; simp [objIdx, hu]
    rw [this]
    simp only [Bool.false_eq_true, if_false]
    rw [listPushIdx_eq hg hu _ _ _ hb]
  · have : objIdx g = fun p => bitmapPtrToIdx g p (calcReciprocal g.size) := by
      funext p; simp [objIdx, hu]
    rw [this]
    simp only [if_true]
    rw [bitmapPushIdx_eq (calcReciprocal g.size)]

/-! ### Push -/

theorem listPush_spec {g : Geo} {s : St} {w : Mem} {F batch : List Nat} (hg : g.OK)
    (hl : useBitmap g = false) (h : Rep g s w F) (hnd : (batch ++ F).Nodup)
    (hb : ∀ p ∈ batch, IsObj g p) (hlen : batch.length ≤ s.alloc) :
    ∀ s' w', listPush g { s with alloc := s.alloc - batch.length } w batch = (s', w') →
      Rep g s' w' (batch ++ F) ∧
      ∀ a, (∀ p ∈ batch ++ F, ¬ InObj g p a) → w' a = w a := by
  intro s' w' heq
  obtain ⟨hc, L, hch, hp⟩ := h.list hl
  have hobjs : ∀ p ∈ batch ++ F, IsObj g p := by
    intro p hp'
    rcases List.mem_append.1 hp' with h' | h'
    · exact hb p h'
    · exact h.objs p h'
  unfold listPush at heq
  simp only [] at heq
  generalize hcw : min (g.cacheSize - s.cache.length) batch.length = cw at heq
  have hsplit : batch.take cw ++ batch.drop cw = batch := List.take_append_drop _ _
  have hmapid : ∀ l : List Nat, (∀ p ∈ l, IsObj g p) →
      (l.map (ptrToIdx g)).map (idxToPtr g.start) = l := by
    intro l hl'
    rw [List.map_map]
    conv => rhs; rw [← List.map_id l]
    apply List.map_congr_left
    intro p hp'
    exact (ptr_idx hg hl (hl' p hp')).1
  have htake : ∀ p ∈ batch.take cw, IsObj g p := fun p hp' => hb p (List.mem_of_mem_take hp')
  have hdrop : ∀ p ∈ batch.drop cw, IsObj g p := fun p hp' => hb p (List.mem_of_mem_drop hp')
  have htot := h.total
  -- the pushed list
  have key : ∀ fl em w1, pushAll (baseOf g) (limOf g) s.freelist s.embed w
      ((batch.drop cw).map (ptrToIdx g)) = (fl, em, w1) →
      (s', w') = ({ s with alloc := s.alloc - batch.length,
                           cache := s.cache ++ (batch.take cw).map (ptrToIdx g),
                           freelist := fl, embed := em }, w1) →
      Rep g s' w' (batch ++ F) ∧ ∀ a, (∀ p ∈ batch ++ F, ¬ InObj g p a) → w' a = w a := by
    intro fl em w1 hpa heq'
    simp only [Prod.mk.injEq] at heq'
    obtain ⟨rfl, rfl⟩ := heq'
    -- indices to push and the list are disjoint
    have hperm : (batch ++ F).Perm
        (((s.cache ++ (batch.take cw).map (ptrToIdx g)).reverse ++
          (((batch.drop cw).map (ptrToIdx g)).reverse ++ L)).map (idxToPtr g.start)) := by
      simp only [List.reverse_append, List.map_append, List.map_reverse]
      rw [hmapid _ htake, hmapid _ hdrop]
      simp only [List.map_append, List.map_reverse] at hp
      rw [show batch ++ F = batch.take cw ++ batch.drop cw ++ F by rw [hsplit]]
      apply List.Perm.trans (List.Perm.append_left _ hp)
      rw [List.append_assoc, List.append_assoc]
      apply List.Perm.append (List.reverse_perm _).symm
      rw [← List.append_assoc, ← List.append_assoc]
      apply List.Perm.append_right
      apply List.Perm.trans List.perm_append_comm
      exact List.Perm.append_left _ (List.reverse_perm _).symm
    have hnd2 := hperm.nodup_iff.1 hnd
    have hndI := List.Pairwise.of_map (S := (· ≠ ·)) (R := (· ≠ ·)) (idxToPtr g.start)
      (fun a b hab e => hab (by rw [e])) hnd2
    have hndI2 := (List.nodup_append.1 hndI).2.1
    have hidx : ∀ x ∈ ((batch.drop cw).map (ptrToIdx g)).reverse ++ L,
        ∃ k, k < g.count ∧ x = g.size / 8 * k ∧ g.start + k * g.size ∈ batch ++ F := by
      intro x hx
      rw [List.mem_append, List.mem_reverse] at hx
      rcases hx with hx | hx
      · obtain ⟨q, hq, rfl⟩ := List.mem_map.1 hx
        obtain ⟨k, hk, rfl⟩ := hdrop q hq
        exact ⟨k, hk, (ptrToIdx_obj hg hl hk).1, by simp [List.mem_of_mem_drop hq]⟩
      · obtain ⟨k, hk, rfl⟩ := (h.idx hg hp).2 x (by simp [hx])
        refine ⟨k, hk, rfl, ?_⟩
        have := hp.mem_iff.2 (List.mem_map_of_mem (f := idxToPtr g.start)
          (show g.size / 8 * k ∈ s.cache.reverse ++ L by simp [hx]))
        rw [idxToPtr_obj hg] at this
        simp [this]
    obtain ⟨d1, d2⟩ := pushAll_spec (lim_eq hg) hg.size_step.2 _ w s.freelist s.embed L hch hndI2
      (fun x hx => by obtain ⟨k, _, e, _⟩ := hidx x hx; exact ⟨k, e⟩)
      (fun x hx => by
        obtain ⟨q, hq, rfl⟩ := List.mem_map.1 hx
        exact (ptr_idx hg hl (hdrop q hq)).2.1) _ _ _ hpa
    refine ⟨⟨hnd, hobjs, ?_, ?_, ?_⟩, ?_⟩
    · simp only [List.length_append]; omega
    · intro _
      refine ⟨?_, _, d1, hperm⟩
      simp only [List.length_append, List.length_map, List.length_take]; omega
    · intro hbm; rw [hl] at hbm; simp at hbm
    · intro a ha
      apply d2
      intro x hx k hk e
      obtain ⟨m, hm, rfl, hin⟩ := hidx x hx
      exact ha _ hin (e ▸ wordIn hg hk)
  generalize hd : batch.drop cw = d at *
  cases d with
  | nil =>
    exact key s.freelist s.embed w rfl (by simp only [] at heq; exact heq.symm)
  | cons p ps =>
    obtain ⟨k, hk, ek⟩ := hdrop p (by simp)
    have est : p - p % g.pageSize = g.start := by rw [ek]; exact page_start hg hl hk
    simp only [] at heq
    rw [est, listPushLoop_eq hg hl _ hdrop] at heq
    exact key _ _ _ rfl heq.symm

theorem bitmapPush_spec {g : Geo} (hg : g.OK) (hl : useBitmap g = true) :
    ∀ (batch : List Nat) (ws : List Word), WF g.bitmapSize ws → (∀ p ∈ batch, IsObj g p) →
      ∃ ws', bitmapPush g (calcReciprocal g.size) ws batch = some ws' ∧ WF g.bitmapSize ws' ∧
        ∀ k, bitAt ws' k = true ↔
          bitAt ws k = true ∨ (k < g.count ∧ g.start + k * g.size ∈ batch) := by
  intro batch
  induction batch with
  | nil => intro ws h _; exact ⟨ws, rfl, h, by simp⟩
  | cons p ps ih =>
    intro ws h hb
    obtain ⟨k, hk, rfl⟩ := hb p (by simp)
    have hbm := hg.bitmapFits hl
    have hbs : g.bitmapSize ≤ 240 := by unfold Geo.bitmapSize; have := hg.cacheHi; omega
    rw [bitmapPush, bitmapPtrToIdx_obj hg hk (by omega)]
    obtain ⟨ws1, e1, w1, b1⟩ := Bitmap.setBit_spec h (show k < g.bitmapSize by omega)
    rw [e1, Option.bind_some]
    obtain ⟨ws', e2, w2, b2⟩ := ih ws1 w1 (fun q hq => hb q (by simp [hq]))
    refine ⟨ws', e2, w2, fun j => ?_⟩
    rw [b2 j, b1 j]
    by_cases hj : j = k
    · subst hj; simp [hk]
    · simp only [if_neg hj, List.mem_cons]
      constructor
      · rintro (a | ⟨a, b⟩)
        · exact Or.inl a
        · exact Or.inr ⟨a, Or.inr b⟩
      · rintro (a | ⟨a, b | b⟩)
        · exact Or.inl a
        · exact absurd (obj_inj hg b) hj
        · exact Or.inr ⟨a, b⟩

/-- Push, both encodings: the answer is `false` exactly when everything out is coming back; otherwise the
batch joins the free objects, and no word outside free objects and the batch is written. -/
theorem pushBatch_spec {g : Geo} {s : St} {w : Mem} {F batch : List Nat} (hg : g.OK)
    (h : Rep g s w F) (hnd : (batch ++ F).Nodup) (hb : ∀ p ∈ batch, IsObj g p)
    (hlen : batch.length ≤ s.alloc) :
    (batch.length = s.alloc ∧ pushBatch g s w batch (calcReciprocal g.size) = some (false, s, w)) ∨
    (batch.length ≠ s.alloc ∧ ∃ s' w',
      pushBatch g s w batch (calcReciprocal g.size) = some (true, s', w') ∧ Rep g s' w' (batch ++ F) ∧
      ∀ a, (∀ p ∈ batch ++ F, ¬ InObj g p a) → w' a = w a) := by
  unfold pushBatch
  rw [if_neg (by omega)]
  by_cases he : s.alloc = batch.length
  · rw [if_pos he]; exact Or.inl ⟨he.symm, rfl⟩
  · rw [if_neg he]
    refine Or.inr ⟨fun e => he e.symm, ?_⟩
    cases hu : useBitmap g
    · simp only [Bool.false_eq_true, if_false]
      obtain ⟨a, b⟩ := listPush_spec hg hu h hnd hb hlen _ _ rfl
      exact ⟨_, _, rfl, a, b⟩
    · simp only [if_true]
      obtain ⟨hwf, hbit⟩ := h.bits hu
      obtain ⟨ws', e, w1, b1⟩ := bitmapPush_spec hg hu batch s.bitmap hwf hb
      rw [e]
      refine ⟨_, _, rfl, ⟨hnd, ?_, ?_, ?_, ?_⟩, fun _ _ => rfl⟩
      · intro p hp'
        rcases List.mem_append.1 hp' with h' | h'
        · exact hb p h'
        · exact h.objs p h'
      · have := h.total
        simp only [List.length_append]; omega
      · intro hh; rw [hu] at hh; simp at hh
      · intro _
        refine ⟨w1, fun k => ?_⟩
        simp only []
        rw [b1 k, hbit k, List.mem_append]
        constructor
        · rintro (⟨a, b⟩ | ⟨a, b⟩)
          · exact ⟨a, Or.inr b⟩
          · exact ⟨a, Or.inl b⟩
        · rintro ⟨a, b | b⟩
          · exact Or.inr ⟨a, b⟩
          · exact Or.inl ⟨a, b⟩

/-! ### Build -/

theorem buildLoop_spec {g : Geo} (hg : g.OK) (hl : useBitmap g = false) :
    ∀ (r i : Nat) (host : Option Nat) (em fl : Nat) (w : Mem) (L : List Nat),
      Chain w (baseOf g) (limOf g) fl em L → L.Nodup →
      (∀ x ∈ L, IsIdx (g.size / 8) x ∧ (x < g.size / 8 * i ∨ g.size / 8 * (i + r) ≤ x)) →
      i + r ≤ g.count →
      (host = none → fl = kListEnd) → (∀ h, host = some h → h = fl ∧ fl ≠ kListEnd) →
      ∀ fl' em' w', buildLoop g (g.size / 8) r i host em fl w = (fl', em', w') →
        ∃ L', Chain w' (baseOf g) (limOf g) fl' em' L' ∧ L'.Nodup ∧ L'.length = L.length + r ∧
          ∀ x, x ∈ L' ↔ x ∈ L ∨ ∃ k, i ≤ k ∧ k < i + r ∧ x = g.size / 8 * k := by
  intro r
  induction r with
  | zero =>
    intro i host em fl w L h hnd hx hc h1 h2 fl' em' w' heq
    simp only [buildLoop, Prod.mk.injEq] at heq
    obtain ⟨rfl, rfl, rfl⟩ := heq
    refine ⟨L, h, hnd, rfl, fun x => ?_⟩
    constructor
    · exact Or.inl
    · rintro (h | ⟨k, a, b, _⟩)
      · exact h
      · omega
  | succ r ih =>
    intro i host em fl w L h hnd hx hc h1 h2 fl' em' w' heq
    have hst := hg.size_step.2
    have hlt : ∀ k, k < g.count → g.size / 8 * k ≠ kListEnd := by
      intro k hk
      have := (ptrToIdx_obj hg hl hk).2
      unfold kListEnd; omega
    have hmul : ∀ a b, a < b → g.size / 8 * a + g.size / 8 ≤ g.size / 8 * b := by
      intro a b hab
      have := Nat.mul_le_mul_left (g.size / 8) (show a + 1 ≤ b from hab)
      rw [Nat.mul_add] at this; omega
    -- new host
    have case1 : ∀ (_ : fl = kListEnd ∨ em = limOf g),
        buildLoop g (g.size / 8) r (i + 1) (some (g.size / 8 * i)) 0 (g.size / 8 * i)
          (wr w (idxToPtr g.start (g.size / 8 * i) / 2) fl) = (fl', em', w') →
        ∃ L', Chain w' (baseOf g) (limOf g) fl' em' L' ∧ L'.Nodup ∧ L'.length = L.length + (r + 1) ∧
          ∀ x, x ∈ L' ↔ x ∈ L ∨ ∃ k, i ≤ k ∧ k < i + (r + 1) ∧ x = g.size / 8 * k := by
      intro hcond heq'
      have hni : g.size / 8 * i ∉ L := by
        intro hm
        have := (hx _ hm).2
        have := hmul i (i + (r + 1)) (by omega)
        omega
      have hp : pushCore (baseOf g) (limOf g) fl em w (g.size / 8 * i) =
          (g.size / 8 * i, 0, wr w (idxToPtr g.start (g.size / 8 * i) / 2) fl) := by
        unfold pushCore
        rw [if_neg (by
          rintro ⟨a, b⟩
          rcases hcond with h | h
          · exact a h
          · exact b h), obj_word hg]
      obtain ⟨c1, c2, _⟩ := pushCore_spec (lim_eq hg) hst h hnd (fun x hxL => (hx x hxL).1) ⟨i, rfl⟩ hni
        (hlt i (by omega)) _ _ _ hp
      obtain ⟨L', d1, d2, d3, d4⟩ := ih (i + 1) _ _ _ _ _ c1 (List.nodup_cons.2 ⟨hni, hnd⟩)
        (by
          intro x hxm
          rcases List.mem_cons.1 hxm with rfl | hxm
          · exact ⟨⟨i, rfl⟩, Or.inl (by have := hmul i (i + 1) (by omega); omega)⟩
          · refine ⟨(hx x hxm).1, ?_⟩
            have := hmul i (i + 1) (by omega)
            rcases (hx x hxm).2 with a | a
            · left; omega
            · right; rw [show i + 1 + r = i + (r + 1) by omega]; exact a)
        (by omega) (by simp) (by intro h' e; simp only [Option.some.injEq] at e; exact ⟨e.symm, c2⟩)
        _ _ _ heq'
      refine ⟨L', d1, d2, by rw [d3, List.length_cons]; omega, fun x => ?_⟩
      rw [d4 x, List.mem_cons]
      constructor
      · rintro ((rfl | a) | ⟨k, a, b, c⟩)
        · exact Or.inr ⟨i, by omega, by omega, rfl⟩
        · exact Or.inl a
        · exact Or.inr ⟨k, by omega, by omega, c⟩
      · rintro (a | ⟨k, a, b, c⟩)
        · exact Or.inl (Or.inr a)
        · by_cases hk : k = i
          · subst hk; exact Or.inl (Or.inl c)
          · exact Or.inr ⟨k, by omega, by omega, c⟩
    cases host with
    | none =>
      simp only [buildLoop] at heq
      exact case1 (Or.inl (h1 rfl)) heq
    | some h' =>
      obtain ⟨rfl, hfl⟩ := h2 h' rfl
      rw [buildLoop] at heq
      by_cases hem : em ≠ limOf g
      · rw [if_pos (show em ≠ g.size / 2 - 1 from hem)] at heq
        have hni : g.size / 8 * (i + r) ∉ L := by
          intro hm
          have := (hx _ hm).2
          have a1 := hmul (i + r) (i + (r + 1)) (by omega)
          have a2 : g.size / 8 * i ≤ g.size / 8 * (i + r) := Nat.mul_le_mul_left _ (by omega)
          omega
        have hp : pushCore (baseOf g) (limOf g) h' em w (g.size / 8 * (i + r)) =
            (h', em + 1, wr w (idxToPtr g.start h' / 2 + (em + 1)) (g.size / 8 * (i + r))) := by
          unfold pushCore
          rw [if_pos ⟨hfl, hem⟩, obj_word hg]
        obtain ⟨c1, _, _⟩ := pushCore_spec (lim_eq hg) hst h hnd (fun x hxL => (hx x hxL).1)
          ⟨i + r, rfl⟩ hni (hlt (i + r) (by omega)) _ _ _ hp
        obtain ⟨L', d1, d2, d3, d4⟩ := ih i _ _ _ _ _ c1 (List.nodup_cons.2 ⟨hni, hnd⟩)
          (by
            intro x hxm
            rcases List.mem_cons.1 hxm with rfl | hxm
            · exact ⟨⟨i + r, rfl⟩, Or.inr (Nat.le_refl _)⟩
            · refine ⟨(hx x hxm).1, ?_⟩
              have := hmul (i + r) (i + (r + 1)) (by omega)
              rcases (hx x hxm).2 with a | a
              · left; exact a
              · right; omega)
          (by omega) (by simp) (by intro h'' e; simp only [Option.some.injEq] at e; exact ⟨e.symm, hfl⟩)
          _ _ _ heq
        refine ⟨L', d1, d2, by rw [d3, List.length_cons]; omega, fun x => ?_⟩
        rw [d4 x, List.mem_cons]
        constructor
        · rintro ((rfl | a) | ⟨k, a, b, c⟩)
          · exact Or.inr ⟨i + r, by omega, by omega, rfl⟩
          · exact Or.inl a
          · exact Or.inr ⟨k, by omega, by omega, c⟩
        · rintro (a | ⟨k, a, b, c⟩)
          · exact Or.inl (Or.inr a)
          · by_cases hk : k = i + r
            · subst hk; exact Or.inl (Or.inl c)
            · exact Or.inr ⟨k, by omega, by omega, c⟩
      · rw [if_neg (show ¬ em ≠ g.size / 2 - 1 from hem)] at heq
        exact case1 (Or.inr (Classical.byContradiction hem)) heq

/-- After building: the batch and the free objects together are all the span's objects. -/
theorem build_spec {g : Geo} (hg : g.OK) (s : St) (w : Mem) (n : Nat) :
    ∃ s' w' out F, build g s w n = some (s', w', out) ∧ Rep g s' w' F ∧ (out ++ F).Nodup ∧
      (∀ p, p ∈ out ++ F ↔ IsObj g p) ∧ out.length = min n g.count ∧
      out.length + F.length = g.count := by
  have hallnd : ((List.range g.count).map fun k => g.start + k * g.size).Nodup := by
    apply List.Pairwise.map _ _ (List.nodup_range)
    intro a b hab e
    exact hab (obj_inj hg e)
  have hallmem : ∀ p, p ∈ ((List.range g.count).map fun k => g.start + k * g.size) ↔ IsObj g p := by
    intro p
    rw [List.mem_map]
    constructor
    · rintro ⟨k, hk, rfl⟩; exact ⟨k, List.mem_range.1 hk, rfl⟩
    · rintro ⟨k, hk, rfl⟩; exact ⟨k, List.mem_range.2 hk, rfl⟩
  unfold build
  cases hu : useBitmap g
  · simp only [Bool.false_eq_true, if_false]
    unfold listBuild
    simp only []
    generalize hres : (if n ≤ g.count then n else g.count) = res
    have hres' : res = min n g.count := by rw [← hres]; split <;> omega
    generalize hcs : min g.cacheSize (g.count - res) = cs
    obtain ⟨fl, em, w', hb⟩ : ∃ fl em w', buildLoop g (g.size / 8) (g.count - res - cs) (res + cs) none 0
        kListEnd w = (fl, em, w') := ⟨_, _, _, rfl⟩
    rw [hb]
    obtain ⟨L, d1, d2, d3, d4⟩ := buildLoop_spec hg hu _ _ _ _ _ _ [] (Chain.nil 0) (by simp) (by simp)
      (by omega) (fun _ => rfl) (by simp) _ _ _ hb
    simp only [List.not_mem_nil, false_or, List.length_nil, Nat.zero_add] at d3 d4
    have hinj : ∀ a b, g.size / 8 * a = g.size / 8 * b → a = b :=
      fun a b e => Nat.eq_of_mul_eq_mul_left hg.size_step.2 e
    have hcnd : ((List.range cs).map fun k => g.size / 8 * (res + k)).Nodup := by
      apply List.Pairwise.map _ _ (List.nodup_range)
      intro a b hab e
      have := hinj _ _ e
      omega
    have hmemIdx : ∀ x, x ∈ ((List.range cs).map fun k => g.size / 8 * (res + k)).reverse ++ L ↔
        ∃ k, res ≤ k ∧ k < g.count ∧ x = g.size / 8 * k := by
      intro x
      rw [List.mem_append, List.mem_reverse, List.mem_map, d4]
      constructor
      · rintro (⟨k, hk, rfl⟩ | ⟨k, a, b, rfl⟩)
        · have := List.mem_range.1 hk
          exact ⟨res + k, by omega, by omega, rfl⟩
        · exact ⟨k, by omega, by omega, rfl⟩
      · rintro ⟨k, a, b, rfl⟩
        by_cases hk : k < res + cs
        · left
          refine ⟨k - res, List.mem_range.2 (by omega), ?_⟩
          rw [show res + (k - res) = k by omega]
        · right; exact ⟨k, by omega, by omega, rfl⟩
    have hIdxNd : (((List.range cs).map fun k => g.size / 8 * (res + k)).reverse ++ L).Nodup := by
      rw [List.nodup_append]
      refine ⟨(List.reverse_perm _).nodup_iff.2 hcnd, d2, ?_⟩
      intro a ha b hb' e
      subst e
      rw [List.mem_reverse, List.mem_map] at ha
      obtain ⟨k, hk, rfl⟩ := ha
      obtain ⟨j, a, b, c⟩ := (d4 _).1 hb'
      have := hinj _ _ c
      have := List.mem_range.1 hk
      omega
    generalize hI : ((List.range cs).map fun k => g.size / 8 * (res + k)).reverse ++ L = I at *
    have hFmem : ∀ p, p ∈ I.map (idxToPtr g.start) ↔
        ∃ k, res ≤ k ∧ k < g.count ∧ p = g.start + k * g.size := by
      intro p
      rw [List.mem_map]
      constructor
      · rintro ⟨x, hx, rfl⟩
        obtain ⟨k, a, b, rfl⟩ := (hmemIdx x).1 hx
        exact ⟨k, a, b, idxToPtr_obj hg k⟩
      · rintro ⟨k, a, b, rfl⟩
        exact ⟨_, (hmemIdx _).2 ⟨k, a, b, rfl⟩, idxToPtr_obj hg k⟩
    have hFnd : (I.map (idxToPtr g.start)).Nodup := by
      apply List.Pairwise.map _ _ hIdxNd
      intro a b hab e
      unfold idxToPtr at e
      rw [Nat.shiftLeft_eq, Nat.shiftLeft_eq] at e
      omega
    have hlenI : I.length + res = g.count := by
      rw [← hI]
      simp only [List.length_append, List.length_reverse, List.length_map, List.length_range, d3]
      omega
    have hond : ((List.range res).map fun i => g.start + i * g.size).Nodup := by
      apply List.Pairwise.map _ _ (List.nodup_range)
      intro a b hab e
      exact hab (obj_inj hg e)
    refine ⟨_, _, _, I.map (idxToPtr g.start), rfl, ⟨hFnd, ?_, ?_, ?_, ?_⟩, ?_, ?_, ?_, ?_⟩
    · intro p hp
      obtain ⟨k, _, b, rfl⟩ := (hFmem p).1 hp
      exact ⟨k, b, rfl⟩
    · simp only [List.length_map]; omega
    · intro _
      refine ⟨by simp; omega, L, d1, ?_⟩
      simp only [hI]; exact List.Perm.refl _
    · intro hh; rw [hu] at hh; simp at hh
    · rw [List.nodup_append]
      refine ⟨hond, hFnd, ?_⟩
      intro a ha b hb' e
      subst e
      obtain ⟨k, hk, rfl⟩ := List.mem_map.1 ha
      obtain ⟨j, a', _, c⟩ := (hFmem _).1 hb'
      have := obj_inj hg c
      have := List.mem_range.1 hk
      omega
    · intro p
      rw [List.mem_append, hFmem, List.mem_map]
      constructor
      · rintro (⟨k, hk, rfl⟩ | ⟨k, _, b, rfl⟩)
        · exact ⟨k, by have := List.mem_range.1 hk; omega, rfl⟩
        · exact ⟨k, b, rfl⟩
      · rintro ⟨k, hk, rfl⟩
        by_cases hr : k < res
        · exact Or.inl ⟨k, List.mem_range.2 hr, rfl⟩
        · exact Or.inr ⟨k, by omega, hk, rfl⟩
    · simp; omega
    · simp; omega
  · simp only [if_true]
    have hbm := hg.bitmapFits hu
    obtain ⟨ws, e, w1, b1⟩ := Bitmap.setRange_exact true g.bitmapSize (Bitmap.empty g.bitmapSize)
      (Bitmap.wf_empty _) 0 g.count hg.countPos (by omega)
    unfold buildBitmap
    rw [e]
    simp only []
    have hrep : Rep g { s with freelist := kListEnd, alloc := 0, bitmap := ws } w
        ((List.range g.count).map fun k => g.start + k * g.size) := by
      refine ⟨hallnd, fun p hp => (hallmem p).1 hp, by simp, ?_, ?_⟩
      · intro hh; rw [hu] at hh; simp at hh
      · intro _
        refine ⟨w1, fun k => ?_⟩
        simp only []
        rw [b1 k, Bitmap.bitAt_empty, hallmem]
        constructor
        · intro hk
          split at hk
          · rename_i hh; exact ⟨by omega, k, by omega, rfl⟩
          · simp at hk
        · rintro ⟨hk, _⟩
          rw [if_pos ⟨by omega, by omega⟩]
    obtain ⟨s', out, F', p1, p2, p3, p4⟩ := bitmapPop_spec hg hu hrep n
    rw [p1]
    refine ⟨s', w, out, F', rfl, p2, p3.nodup_iff.2 hallnd, fun p => ?_, ?_, ?_⟩
    · rw [p3.mem_iff, hallmem]
    · rw [p4]; simp
    · have := p3.length_eq
      rw [List.length_append] at this
      simpa using this

end Verif.Span
