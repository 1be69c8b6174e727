import Verif.Filler.Inv
/-! `TryGet` and `Contribute` keep the invariant. -/
namespace Verif.Filler
open Verif.Bitmap Verif.RangeTracker Verif.PageTracker Verif.HintedLists

variable {N : Nat} {mode : Bool}

theorem order_iff {t : PT} (h : T N t) (dense : Bool) : (place N mode t).1 ∈ order dense ↔ t.dense = dense := by
  unfold order
  cases hd : t.donated with
  | true =>
    have h1 := (place_donated_iff (N := N) (mode := mode) t).2 hd
    have h2 := (h.don hd).1
    rw [h1, h2]
    cases dense <;> simp
  | false =>
    have hp : place N mode t = (kindOf N mode t, idxOf N t) := by unfold place; rw [hd]; simp
    rw [hp]
    have hk : kindOf N mode t = .regular t.dense ∨ kindOf N mode t = .released t.dense ∨
        kindOf N mode t = .partialRel t.dense := by
      unfold kindOf
      split
      · exact Or.inl rfl
      · split
        · exact Or.inr (Or.inl rfl)
        · exact Or.inr (Or.inr rfl)
    rcases hk with hk | hk | hk <;> simp only [hk] <;> cases dense <;> cases t.dense <;> simp

theorem noteWhole_spec (s : F) (id : Nat) (w d : Bool) (hd : (s.tr id).dense = d) :
    ∃ b f, noteWhole s id w d = { s with tr := upd s.tr id { s.tr id with wasReleased := b }, nWas := f } ∧
      ∀ d', f d' + (if (s.tr id).wasReleased = true ∧ (s.tr id).dense = d' then 1 else 0) =
        s.nWas d' + (if b = true ∧ (s.tr id).dense = d' then 1 else 0) := by
  unfold noteWhole
  split
  · next h =>
    refine ⟨true, _, rfl, ?_⟩
    intro d'
    rw [h.2.2]
    simp only [Bool.false_eq_true, false_and, if_false, true_and]
    by_cases hdd : d' = d
    · subst hdd; rw [upd_same]; simp [hd]
    · rw [upd_ne _ _ hdd, if_neg (by rw [hd]; exact fun e => hdd e.symm)]
  · refine ⟨(s.tr id).wasReleased, s.nWas, ?_, fun _ => rfl⟩
    have : upd s.tr id { s.tr id with wasReleased := (s.tr id).wasReleased } = s.tr := upd_self s.tr id
    rw [this]

/-- A hugepage with released pages is on one of the released lists. -/
theorem rel_kind {t : PT} (h : T N t) (hr : t.relCount ≠ 0) :
    (place N mode t).1 = .partialRel t.dense ∨ (place N mode t).1 = .released t.dense := by
  have hd : t.donated = false := by
    cases hd : t.donated with
    | false => rfl
    | true => exact absurd (h.don hd).2 hr
  have hp : place N mode t = (kindOf N mode t, idxOf N t) := by unfold place; rw [hd]; simp
  rw [hp]
  unfold kindOf
  rw [if_neg (fun hc => hr hc.1)]
  split
  · exact Or.inr rfl
  · exact Or.inl rfl

theorem finishGet_spec {s s1 : F} {g : Gh} (h : K N mode s g) {n objs : Nat} {dense w : Bool} {id : Nat}
    (hn : 0 < n) (h1 : dense = true → n = 1)
    (hs : ∃ hl nr np, s1 = { s with hl := hl, nUsedRel := nr, nUsedPart := np } ∧ LI N mode s.tr hl nr np (g.held.erase id))
    (hid : id ∈ g.held) (hfit : n ≤ (s.tr id).free.longestFree) (hd : (s.tr id).dense = dense)
    (hw : w = true ↔ (place N mode (s.tr id)).1 = .partialRel dense ∨ (place N mode (s.tr id)).1 = .released dense) :
    ∃ s2 index, finishGet N mode s1 n objs dense id w = some (s2, (s.tr id).firstPage N + index) ∧ index + n ≤ N ∧
      (∀ j, index ≤ j → j < index + n → ¬ (s.tr id).Used j) ∧
      K N mode s2 { g with live := upd g.live id (⟨index, n, objs⟩ :: g.live id) } ∧
      s2.freed = s.freed ∧ s2.size = s.size ∧ s2.unacc = s.unacc ∧
      (∀ x, x ≠ id → s2.tr x = s.tr x) ∧ (s2.tr id).loc = (s.tr id).loc := by
  obtain ⟨hl, nr, np, es, hli⟩ := hs
  obtain ⟨t', index, len, e, hle, hb, hnot, hG, _, _, hc, hnu, hna, f, r, c, o, ht⟩ := get_spec (h.g hid) objs hn hfit
  have htr1 : s1.tr = s.tr := by rw [es]
  unfold finishGet
  rw [htr1, if_pos ⟨hfit, by rw [hd]; cases dense <;> simp⟩, e]
  simp only []
  have hv' : V N t' := G.v hG (by simp)
  obtain ⟨hl2, nr2, np2, e2, hli2⟩ := readd hid h.held_nd (s := s1.setTr id t') (t := t') hli
    (by unfold F.setTr; simp only [htr1]) (by rw [es]; rfl) (by rw [es]; rfl) (by rw [es]; rfl) hv'
  rw [e2]
  simp only []
  have hsd : t'.dense = (s.tr id).dense := by rw [ht]
  generalize hs3 : ({ s1.setTr id t' with
      tr := upd s.tr id { t' with donated := false }, hl := hl2, nUsedRel := nr2, nUsedPart := np2,
      alloc := upd (s1.setTr id t').alloc dense ((s1.setTr id t').alloc dense + n) } : F) = s3
  have h3tr : s3.tr = upd s.tr id { t' with donated := false } := by rw [← hs3]
  have h3id : s3.tr id = { t' with donated := false } := by rw [h3tr, upd_same]
  obtain ⟨b, nw, en, hnw⟩ := noteWhole_spec s3 id w dense (by rw [h3id]; exact hsd.trans hd)
  rw [en]
  simp only []
  have h3un : s3.unmapped = s.unmapped := by rw [← hs3, es]; rfl
  have hle2 : cnt (bitAt (s.tr id).rel) index n ≤ s.unmapped := by
    have h5 := sumOn_mem_le (f := relIn s.tr) hid
    have h6 := h.unm
    have h7 : relIn s.tr id = (s.tr id).relCount := rfl
    omega
  rw [if_pos, h3un, subCount_le hle2]
  · simp only [upd_same, h3id]
    refine ⟨_, index, rfl, hle, hnot, ?_, by rw [← hs3, es]; rfl, by rw [← hs3, es]; rfl, by rw [← hs3, es]; rfl, ?_, ?_⟩
    · refine h.modify hid (t' := { t' with donated := false, wasReleased := b }) ?_ ?_ ?_ ?_ ?_ (by simp) ?_ ?_ ?_ ?_ ?_ ?_ ?_
      · simp only [h3tr]; rw [upd_upd]
      · simp only []; rw [← hs3, es]; rfl
      · simp only []; rw [← hs3, es]; rfl
      · simp only []
        have a1 : s3.hl = hl2 := by rw [← hs3]
        have a2 : s3.nUsedRel = nr2 := by rw [← hs3]
        have a3 : s3.nUsedPart = np2 := by rw [← hs3]
        rw [a1, a2, a3, h3tr]
        refine hli2.congr' ?_
        intro x hx
        rw [upd_upd]
        by_cases hxx : x = id
        · subst hxx; rw [upd_same, upd_same]; exact ⟨place_congr rfl rfl rfl rfl rfl, rfl⟩
        · rw [upd_ne _ _ hxx, upd_ne _ _ hxx]; exact ⟨rfl, rfl⟩
      · exact G.flags hG rfl rfl rfl rfl
      · exact hsd
      · intro hdd a ha
        have hdt : dense = true := by rw [← hd, ← hsd]; exact hdd
        rcases List.mem_cons.1 ha with rfl | ha
        · exact h1 hdt
        · exact h.one id hid (hd.trans hdt) a ha
      · intro hdon; simp at hdon
      · simp only []; rw [ht]
      · intro d
        have a1 : s3.alloc = upd s.alloc dense (s.alloc dense + n) := by rw [← hs3, es]; rfl
        simp only [a1, hd]
        by_cases hdd : d = dense
        · subst hdd; rw [upd_same]; simp; omega
        · rw [upd_ne _ _ hdd, if_neg (fun e => hdd e.symm), if_neg (fun e => hdd e.symm)]
      · simp only []; omega
      · intro d
        have a1 : s3.nWas = s.nWas := by rw [← hs3, es]; rfl
        have := hnw d
        rw [h3id, a1] at this
        simp only [hsd] at this
        have hww : t'.wasReleased = (s.tr id).wasReleased := by rw [ht]
        rw [hww] at this
        exact this
    · intro x hx
      simp only [h3tr]
      rw [upd_ne _ _ hx, upd_ne _ _ hx]
    · simp only [upd_same]; rw [ht]
  · by_cases hu : cnt (bitAt (s.tr id).rel) index n = 0
    · exact Or.inr hu
    · left
      rw [hw, ← hd]
      exact rel_kind (h.t hid) (by omega)

/-- Everything about `TryGet`. -/
theorem tryGet_spec {s : F} {g : Gh} (h : K N mode s g) {n objs : Nat} {dense : Bool} (hn : 0 < n) (hlt : n < N)
    (h1 : dense = true → n = 1) :
    (tryGet N mode s n objs dense = some (s, none) ∧
      ∀ id ∈ g.held, (s.tr id).dense = dense → (s.tr id).free.longestFree < n) ∨
    (∃ s' id index w, tryGet N mode s n objs dense = some (s', some (id, (s.tr id).firstPage N + index, w)) ∧
      id ∈ g.held ∧ (s.tr id).dense = dense ∧ index + n ≤ N ∧
      (∀ j, index ≤ j → j < index + n → ¬ (s.tr id).Used j) ∧
      K N mode s' { g with live := upd g.live id (⟨index, n, objs⟩ :: g.live id) } ∧
      s'.freed = s.freed ∧ s'.size = s.size ∧ s'.unacc = s.unacc ∧
      (∀ x, x ≠ id → s'.tr x = s.tr x) ∧ (s'.tr id).loc = (s.tr id).loc ∧
      (w = true ↔ (place N mode (s.tr id)).1 = .partialRel dense ∨ (place N mode (s.tr id)).1 = .released dense) ∧
      ∃ pre post, order dense = pre ++ (place N mode (s.tr id)).1 :: post ∧
      (∀ id' ∈ g.held, (place N mode (s.tr id')).1 ∈ pre → (s.tr id').free.longestFree < n) ∧
      (∀ id' ∈ g.held, (place N mode (s.tr id')).1 = (place N mode (s.tr id)).1 → n ≤ (s.tr id').free.longestFree →
        (place N mode (s.tr id)).2 ≤ (place N mode (s.tr id')).2)) := by
  have hN : 2 ≤ N := by omega
  unfold tryGet
  rw [if_pos ⟨hn, by cases dense <;> simp at h1 ⊢; exact h1, hlt⟩, listFor_least hlt hN]
  simp only []
  obtain ⟨⟨s1, r⟩, e, hp⟩ := pick_spec h.li (fun id hid => h.t hid) h1 hlt hN
  rw [e]
  match r, hp with
  | none, hp =>
    left
    obtain ⟨rfl, hp⟩ := hp
    exact ⟨rfl, fun id hid hd => hp id hid ((order_iff (h.t hid) dense).2 hd)⟩
  | some (id, w), hp =>
    right
    obtain ⟨p1, p2, p3, p4, p5, p6⟩ := hp
    obtain ⟨s2, index, e2, q1, q2, q3, q4, q5, q6, q7, q8⟩ := finishGet_spec (objs := objs) h hn h1 p1 p2 p3 p4 p5
    simp only [e2]
    exact ⟨s2, id, index, w, rfl, p2, p4, q1, q2, q3, q4, q5, q6, q7, q8, p5, p6⟩

/-- `Contribute` keeps the invariant. -/
theorem contribute_spec {s : F} {g : Gh} (h : K N mode s g) {id loc n objs index u : Nat} {donated dense : Bool} {t : PT}
    (hno : ¬ owned s g id) (hget : PageTracker.get N (PT.new N loc donated) n objs = some (t, loc * N + index, u))
    (hdon : donated = true → n < N ∧ dense = false) (hden : dense = true → n = 1) :
    ∃ s', contribute N mode s id t donated dense = some s' ∧
      K N mode s' { g with live := upd g.live id [⟨index, n, objs⟩], held := id :: g.held } ∧
      s'.freed = s.freed ∧ (∀ x, x ≠ id → s'.tr x = s.tr x) ∧ (s'.tr id).loc = loc := by
  have hfit := get_some_fit (G.new loc donated) hget
  obtain ⟨t1, index1, len, e, hle, hb, hnot, hG, _, _, hc, hnu, hna, f, r, c, o, ht⟩ :=
    get_spec (G.new loc donated) objs hfit.1 hfit.2
  rw [hget] at e
  simp only [Option.some.injEq, Prod.mk.injEq] at e
  obtain ⟨rfl, he, _⟩ := e
  have hidx : index1 = index := by
    have : loc * N + index = (PT.new N loc donated).loc * N + index1 := he
    have h2 : (PT.new N loc donated).loc = loc := rfl
    rw [h2] at this; omega
  subst hidx
  have hrel : t.relCount = 0 := by
    have : (PT.new N loc donated).relCount = 0 := rfl
    omega
  have hnid : id ∉ g.held := fun hc => hno (Or.inl hc)
  have hnu' : t.free.nused = n := by
    have : (PT.new N loc donated).free.nused = 0 := rfl
    omega
  have hv : V N t := G.v hG (by simp)
  have f1 : t.wasDonated = donated := by rw [ht]; rfl
  have f2 : t.dense = false := by rw [ht]; rfl
  have f3 : t.wasReleased = false := by rw [ht]; rfl
  have f4 : t.dontFree = 0 := by rw [ht]; rfl
  have f5 : t.loc = loc := by rw [ht]; rfl
  have hpinned : mask g.treat id = 0 := by
    cases e : g.treat with
    | none => rfl
    | some AB =>
      obtain ⟨A, B⟩ := AB
      have := h.sel A B e id
      show (if id ∈ A then 1 else 0) + (if id ∈ B then 2 else 0) = 0
      rw [if_neg (fun hc => hno (this (Or.inl hc))), if_neg (fun hc => hno (this (Or.inr hc)))]
  -- the common part: tracker contents `t2`, placed
  have key : ∀ (t2 : PT) (hl : LK → HL) (nr np : Bool → Nat), t2.free = t.free → t2.rel = t.rel → t2.relCount = t.relCount →
      t2.objects = t.objects → t2.dense = dense → t2.wasReleased = false → t2.dontFree = 0 →
      (t2.donated = true → donated = true) →
      LI N mode (upd s.tr id t2) hl nr np (id :: g.held) →
      K N mode { s with tr := upd s.tr id t2, hl := hl, nUsedRel := nr, nUsedPart := np,
                        alloc := upd s.alloc dense (s.alloc dense + n), size := s.size + 1 }
        { g with live := upd g.live id [⟨index1, n, objs⟩], held := id :: g.held } := by
    intro t2 hl nr np k1 k2 k3 k4 k5 k6 k7 k8 hli
    have hne : ∀ x ∈ g.held, x ≠ id := fun x hx e => hnid (e ▸ hx)
    have how : ∀ x, owned s g x → x ≠ id := fun x hx e => hno (e ▸ hx)
    have hown : ∀ x, (x ∈ id :: g.held ∨ x ∈ g.flight.map Prod.fst ∨ x ∈ s.freed) → x ≠ id → owned s g x := by
      intro x hx hxx
      rcases hx with hx | hx | hx
      · rcases List.mem_cons.1 hx with rfl | hx
        · exact absurd rfl hxx
        · exact Or.inl hx
      · exact Or.inr (Or.inl hx)
      · exact Or.inr (Or.inr hx)
    have hsum : ∀ (F1 F2 : Nat → Nat) (L : List Nat), (∀ x ∈ L, owned s g x) → (∀ x, x ≠ id → F2 x = F1 x) →
        sumOn F2 L = sumOn F1 L := fun F1 F2 L h1 h2 => sumOn_congr (fun x hx => h2 x (how x (h1 x hx)))
    refine ⟨hli, ?_, ?_, ?_, ?_, ?_, ?_, ?_, ?_, ?_, ?_, ?_, ?_⟩
    · show ((id :: g.held) ++ (fl g ++ s.freed)).Nodup
      rw [List.cons_append, List.nodup_cons]
      refine ⟨?_, h.nd⟩
      intro hc
      simp only [List.mem_append] at hc
      exact hno hc
    · intro x
      simp only []
      by_cases hx : x = id
      · subst hx; rw [upd_same]; simp
      · rw [upd_ne _ _ hx, List.mem_cons]
        simp only [hx, false_or]
        exact h.held x
    · intro x hx
      simp only []
      by_cases hxx : x = id
      · subst hxx; rw [upd_same, upd_same]; exact G.flags hG k1 k2 k3 k4
      · rw [upd_ne _ _ hxx, upd_ne _ _ hxx]; exact h.gd x (hown x hx hxx)
    · intro x hx
      simp only []
      by_cases hxx : x = id
      · subst hxx; rw [upd_same, upd_same, k5]; intro hd a ha
        rw [List.mem_singleton] at ha; subst ha; exact hden hd
      · rw [upd_ne _ _ hxx, upd_ne _ _ hxx]
        exact h.one x (by rcases List.mem_cons.1 hx with e | e; exact absurd e hxx; exact e)
    · intro x hx
      simp only []
      by_cases hxx : x = id
      · subst hxx; rw [upd_same, k5, k3, k1]; intro hd
        exact ⟨(hdon (k8 hd)).2, hrel, by rw [hnu']; exact (hdon (k8 hd)).1⟩
      · rw [upd_ne _ _ hxx]
        exact h.don x (by rcases List.mem_cons.1 hx with e | e; exact absurd e hxx; exact e)
    · simp only [List.length_cons]; rw [h.size]
    · intro d
      simp only [sumOn_cons]
      rw [hsum (usedIn s.tr d) _ g.held (fun x hx => Or.inl hx) (fun x hx => by unfold usedIn; rw [upd_ne _ _ hx]),
        ← h.alloc d]
      have : usedIn (upd s.tr id t2) d id = if dense = d then n else 0 := by
        unfold usedIn; rw [upd_same, k5, k1, hnu']
      rw [this]
      by_cases hdd : d = dense
      · subst hdd; rw [upd_same]; simp; omega
      · rw [upd_ne _ _ hdd, if_neg (fun e => hdd e.symm)]; omega
    · simp only [sumOn_cons]
      rw [hsum (relIn s.tr) _ g.held (fun x hx => Or.inl hx) (fun x hx => by unfold relIn; rw [upd_ne _ _ hx]), ← h.unm]
      have : relIn (upd s.tr id t2) id = 0 := by unfold relIn; rw [upd_same, k3, hrel]
      omega
    · intro d
      show s.nWas d = sumOn (wasIn (upd s.tr id t2) d) ((id :: g.held) ++ fl g)
      rw [List.cons_append, sumOn_cons, hsum (wasIn s.tr d) _ (g.held ++ fl g) (fun x hx => by
        rcases List.mem_append.1 hx with hx | hx
        · exact Or.inl hx
        · exact Or.inr (Or.inl hx)) (fun x hx => by unfold wasIn; rw [upd_ne _ _ hx]), ← h.was d]
      have : wasIn (upd s.tr id t2) d id = 0 := by unfold wasIn; rw [upd_same, k6]; simp
      omega
    · intro x hx
      simp only []
      by_cases hxx : x = id
      · subst hxx; rw [upd_same, k7, hpinned]
      · rw [upd_ne _ _ hxx]; exact h.pins x (hown x hx hxx)
    · intro A B e x hx
      rcases h.sel A B e x hx with a | a | a
      · exact Or.inl (List.mem_cons_of_mem _ a)
      · exact Or.inr (Or.inl a)
      · exact Or.inr (Or.inr a)
    · intro x hx
      have hxx : x.1 ≠ id := how _ (Or.inr (Or.inl (List.mem_map.2 ⟨x, hx, rfl⟩)))
      simp only []
      rw [upd_ne _ _ hxx]; exact h.rest x hx
  unfold contribute
  rw [if_pos ⟨hrel, fun hc => by have := (hdon hc.2).2; rw [this] at hc; simp at hc⟩]
  simp only []
  cases hd : donated with
  | true =>
    have hdf := (hdon hd).2
    simp only [if_true, f1, hd]
    have htr : (s.setTr id t).tr id = t := setTr_same s id t
    obtain ⟨hl, e, hli⟩ := donateTo_spec (N := N) (mode := mode)
      (s := { s.setTr id t with alloc := upd s.alloc dense (s.alloc dense + t.free.nused) }) (L := g.held) (id := id)
      (h.li.congr (fun x hx => setTr_ne s t (fun e => hnid (e ▸ hx)))) hnid (by simp only [htr]; exact hv)
      (by simp only [htr]; exact hrel)
    have hu : upd (upd s.tr id t) id { t with donated := true } = upd s.tr id { t with donated := true } := upd_upd _ _ _ _
    simp only [F.setTr, upd_same] at e hli
    rw [hu] at hli
    simp only [F.setTr]
    rw [e, hu]
    refine ⟨_, rfl, ?_, rfl, fun x hx => upd_ne _ _ hx, by simp only [upd_same]; exact f5⟩
    have := key { t with donated := true } hl s.nUsedRel s.nUsedPart rfl rfl rfl rfl (by simp only []; rw [f2, hdf]) f3 f4
      (fun _ => hd) hli
    rw [hnu']
    exact this
  | false =>
    simp only [Bool.false_eq_true, if_false]
    have hv2 : V N { t with dense := t.dense || dense } := ⟨hv.longest, hv.used, hv.pos, hv.le⟩
    obtain ⟨hl, nr, np, e, hli⟩ := addTo_spec (N := N) (mode := mode)
      (s := ({ s.setTr id t with alloc := upd s.alloc dense (s.alloc dense + t.free.nused) } : F).setTr id
        { t with dense := t.dense || dense }) (L := g.held) (id := id)
      (h.li.congr (fun x hx => by
        have hx' : x ≠ id := fun e => hnid (e ▸ hx)
        rw [setTr_ne _ _ hx']; exact setTr_ne s t hx')) hnid (by rw [setTr_same]; exact hv2)
    have hu : ∀ a b c : PT, upd (upd (upd s.tr id a) id b) id c = upd s.tr id c := by
      intro a b c; rw [upd_upd, upd_upd]
    simp only [F.setTr, upd_same] at e hli
    rw [hu] at hli
    simp only [F.setTr]
    rw [e, hu]
    refine ⟨_, rfl, ?_, rfl, fun x hx => upd_ne _ _ hx, by simp only [upd_same]; exact f5⟩
    have := key { t with dense := t.dense || dense, donated := false } hl nr np rfl rfl rfl rfl
      (by simp only []; rw [f2]; simp) f3 f4 (fun hc => by simp at hc) hli
    rw [hnu']
    exact this

end Verif.Filler
