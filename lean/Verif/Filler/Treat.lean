import Verif.Filler.Release
/-! Treatments keep the invariant. -/
namespace Verif.Filler
open Verif.Bitmap Verif.RangeTracker Verif.PageTracker Verif.HintedLists

variable {N : Nat} {mode : Bool}

/-- Only pins change. -/
theorem K.repin {s : F} {g : Gh} (h : K N mode s g) {tr' : Nat → PT} {tm : Option (List Nat × List Nat)}
    (htr : ∀ x, ∃ p, tr' x = { s.tr x with dontFree := p })
    (hp : ∀ x, owned s g x → (tr' x).dontFree = mask tm x)
    (hsel : ∀ A B, tm = some (A, B) → ∀ id, id ∈ A ∨ id ∈ B → owned s g id) :
    K N mode { s with tr := tr' } { g with treat := tm } := by
  have h1 : ∀ x, (tr' x).free = (s.tr x).free := fun x => by obtain ⟨p, e⟩ := htr x; rw [e]
  have h2 : ∀ x, (tr' x).dense = (s.tr x).dense := fun x => by obtain ⟨p, e⟩ := htr x; rw [e]
  have h3 : ∀ x, (tr' x).relCount = (s.tr x).relCount := fun x => by obtain ⟨p, e⟩ := htr x; rw [e]
  have h4 : ∀ x, (tr' x).wasReleased = (s.tr x).wasReleased := fun x => by obtain ⟨p, e⟩ := htr x; rw [e]
  have h5 : ∀ x, (tr' x).donated = (s.tr x).donated := fun x => by obtain ⟨p, e⟩ := htr x; rw [e]
  refine ⟨h.li.congr' (fun x _ => ?_), h.nd, h.held, ?_, ?_, ?_, h.size, ?_, ?_, ?_, hp, hsel, ?_⟩
  · obtain ⟨p, e⟩ := htr x
    show place N mode (tr' x) = _ ∧ (tr' x).free.nused = _
    rw [e]; exact ⟨place_congr rfl rfl rfl rfl rfl, rfl⟩
  · intro id hid
    obtain ⟨p, e⟩ := htr id
    show G N (tr' id) _
    rw [e]; exact G.flags (h.gd id hid) rfl rfl rfl rfl
  · intro id hid hd
    exact h.one id hid (by rw [← h2]; exact hd)
  · intro id hid hd
    show (tr' id).dense = false ∧ (tr' id).relCount = 0 ∧ (tr' id).free.nused < N
    rw [h1, h2, h3]
    exact h.don id hid (by rw [← h5]; exact hd)
  · intro d
    have : usedIn tr' d = usedIn s.tr d := by funext x; unfold usedIn; rw [h1, h2]
    show s.alloc d = sumOn (usedIn tr' d) g.held
    rw [this]; exact h.alloc d
  · have : relIn tr' = relIn s.tr := by funext x; unfold relIn; rw [h3]
    show s.unmapped = sumOn (relIn tr') g.held
    rw [this]; exact h.unm
  · intro d
    have : wasIn tr' d = wasIn s.tr d := by funext x; unfold wasIn; rw [h4, h2]
    show s.nWas d = sumOn (wasIn tr' d) (g.held ++ fl g)
    rw [this]; exact h.was d
  · intro x hx
    show (tr' x.1).relCount + _ = _
    rw [h3]; exact h.rest x hx

/-- A fold that changes one tracker's pins at a time. -/
theorem fold_pins (f : Nat → Nat) (hf : ∀ a, f (f a) = f a) (op : F → Nat → F)
    (hop : ∀ s id, op s id = s.setTr id { s.tr id with dontFree := f (s.tr id).dontFree }) : ∀ (L : List Nat) (s : F),
    ∃ tr', L.foldl op s = { s with tr := tr' } ∧ ∀ x, tr' x = { s.tr x with dontFree := if x ∈ L then f (s.tr x).dontFree else (s.tr x).dontFree } := by
  intro L
  induction L with
  | nil => intro s; exact ⟨s.tr, rfl, fun x => by simp⟩
  | cons id L ih =>
    intro s
    rw [List.foldl_cons, hop]
    obtain ⟨tr', e, h⟩ := ih (s.setTr id { s.tr id with dontFree := f (s.tr id).dontFree })
    refine ⟨tr', e, ?_⟩
    intro x
    rw [h x]
    by_cases hx : x = id
    · subst hx
      rw [setTr_same]
      simp only [hf, List.mem_cons, true_or, if_true, ite_self]
    · rw [setTr_ne _ _ hx]
      simp only [List.mem_cons, hx, false_or]

theorem pin_fold (b : Nat) (L : List Nat) (s : F) : ∃ tr', L.foldl (pin b) s = { s with tr := tr' } ∧
    ∀ x, tr' x = { s.tr x with dontFree := if x ∈ L then (s.tr x).dontFree ||| b else (s.tr x).dontFree } :=
  fold_pins (fun a => a ||| b) (fun a => by rw [Nat.or_assoc, Nat.or_self]) (pin b) (fun _ _ => rfl) L s

theorem unpin_fold (b : Nat) (L : List Nat) (s : F) : ∃ tr', L.foldl (unpin b) s = { s with tr := tr' } ∧
    ∀ x, tr' x = { s.tr x with dontFree := if x ∈ L then (s.tr x).dontFree &&& (255 ^^^ b) else (s.tr x).dontFree } :=
  fold_pins (fun a => a &&& (255 ^^^ b)) (fun a => by rw [Nat.and_assoc, Nat.and_self]) (unpin b) (fun _ _ => rfl) L s

theorem treatBegin_spec {s : F} {g : Gh} (h : K N mode s g) (ht : g.treat = none) {A B : List Nat}
    (hA : ∀ id ∈ A, owned s g id) (hB : ∀ id ∈ B, owned s g id) :
    K N mode (treatBegin s A B) { g with treat := some (A, B) } ∧
    (∀ x, ∃ p, (treatBegin s A B).tr x = { s.tr x with dontFree := p }) ∧ (treatBegin s A B).freed = s.freed := by
  obtain ⟨t1, e1, h1⟩ := pin_fold kSampled A s
  obtain ⟨t2, e2, h2⟩ := pin_fold kCollapse B { s with tr := t1 }
  have e : treatBegin s A B = { s with tr := t2 } := by unfold treatBegin; rw [e1, e2]
  have htr : ∀ x, ∃ p, t2 x = { s.tr x with dontFree := p } := fun x => ⟨_, by rw [h2 x]; simp only []; rw [h1 x]⟩
  rw [e]
  refine ⟨h.repin htr ?_ ?_, htr, rfl⟩
  · intro x hx
    have h0 := h.pins x hx
    rw [ht] at h0
    have h0' : (s.tr x).dontFree = 0 := h0
    rw [h2 x]
    simp only []
    rw [h1 x]
    simp only [h0']
    show _ = (if x ∈ A then 1 else 0) + (if x ∈ B then 2 else 0)
    by_cases ha : x ∈ A <;> by_cases hb : x ∈ B <;> simp [ha, hb, kSampled, kCollapse]
  · intro A' B' e' id hid
    simp only [Option.some.injEq, Prod.mk.injEq] at e'
    obtain ⟨rfl, rfl⟩ := e'
    rcases hid with hid | hid
    · exact hA id hid
    · exact hB id hid

/-! ### The end of a treatment -/

/-- What restoring does besides the pins. -/
structure Rst (N : Nat) (s s' : F) (log : Log) (ub : UB) : Prop where
  free : ∀ x, (s'.tr x).free = (s.tr x).free ∧ (s'.tr x).loc = (s.tr x).loc
  freed : s'.freed = s.freed
  acct : s'.unacc + s.unmapped = s.unacc + s'.unmapped
  rel : ∀ x j, (s'.tr x).Rel j ↔ (s.tr x).Rel j ∨ InLog log x j ∨ InUB N s ub x j

theorem inUB_nil (s : F) (x j : Nat) : ¬ InUB N s [] x j := by rintro ⟨w, h, _⟩; simp at h

theorem rst_none {s : F} {x j : Nat} {P : Prop} : P ↔ P ∨ InLog [] x j ∨ InUB N s [] x j :=
  ⟨Or.inl, fun h => by
    rcases h with h | h | h
    · exact h
    · exact absurd h (inLog_nil x j)
    · exact absurd h (inUB_nil s x j)⟩

theorem Rst.refl (s : F) : Rst N s s [] [] := ⟨fun _ => ⟨rfl, rfl⟩, rfl, rfl, fun _ _ => rst_none⟩

theorem inUB_append {s s' : F} (hf : ∀ x, (s'.tr x).free = (s.tr x).free) (A B : UB) (x j : Nat) :
    InUB N s (A ++ B) x j ↔ InUB N s A x j ∨ InUB N s' B x j := by
  unfold InUB PT.Used
  rw [hf]
  constructor
  · rintro ⟨c, h1, h2⟩
    rcases List.mem_append.1 h1 with h | h
    · exact Or.inl ⟨c, h, h2⟩
    · exact Or.inr ⟨c, h, h2⟩
  · rintro (⟨c, h1, h2⟩ | ⟨c, h1, h2⟩)
    · exact ⟨c, List.mem_append.2 (Or.inl h1), h2⟩
    · exact ⟨c, List.mem_append.2 (Or.inr h1), h2⟩

theorem Rst.trans {a b c : F} {l m : Log} {u v : UB} (h1 : Rst N a b l u) (h2 : Rst N b c m v) : Rst N a c (l ++ m) (u ++ v) :=
  ⟨fun x => ⟨(h2.free x).1.trans (h1.free x).1, (h2.free x).2.trans (h1.free x).2⟩, h2.freed.trans h1.freed, by
    have := h1.acct; have := h2.acct; omega, fun x j => by
    rw [h2.rel, h1.rel, inLog_append, inUB_append (fun x => (h1.free x).1)]
    constructor
    · rintro ((h | h | h) | h | h)
      · exact Or.inl h
      · exact Or.inr (Or.inl (Or.inl h))
      · exact Or.inr (Or.inr (Or.inl h))
      · exact Or.inr (Or.inl (Or.inr h))
      · exact Or.inr (Or.inr (Or.inr h))
    · rintro (h | (h | h) | (h | h))
      · exact Or.inl (Or.inl h)
      · exact Or.inl (Or.inr (Or.inl h))
      · exact Or.inr (Or.inl h)
      · exact Or.inl (Or.inr (Or.inr h))
      · exact Or.inr (Or.inr h)⟩

theorem Rst.pins {s : F} {tr' : Nat → PT} (htr : ∀ x, ∃ p, tr' x = { s.tr x with dontFree := p }) :
    Rst N s { s with tr := tr' } [] [] :=
  ⟨fun x => by obtain ⟨p, e⟩ := htr x; show (tr' x).free = _ ∧ (tr' x).loc = _; rw [e]; exact ⟨rfl, rfl⟩, rfl, rfl,
    fun x j => by
      have : (tr' x).Rel j ↔ (s.tr x).Rel j := by obtain ⟨p, e⟩ := htr x; unfold PT.Rel; rw [e]
      show (tr' x).Rel j ↔ _
      rw [this]; exact rst_none⟩

theorem handleReleaseFree_spec {s : F} {g : Gh} (h : K N mode s g) {id : Nat} (hid : id ∈ g.held) (ok : Nat → Bool) :
    ∃ s' calls, handleReleaseFree N mode s id ok = some (s', calls.map (fun c => (id, c))) ∧ K N mode s' g ∧ Rst N s s' (calls.map (fun c => (id, c))) [] ∧
      (∀ x ∈ calls.map (fun c => (id, c)), CallOk N g x) ∧ s'.unacc = s.unacc + okSum calls := by
  obtain ⟨s1, e1, ht1, hu1, hv1, hadd⟩ := retouch h hid
  obtain ⟨t', calls, er, hG, h1, h2, h3, h4, h5, h6, r, c, u, gg, ht⟩ := releaseFree_spec (h.g hid) ok
  obtain ⟨s2, e2, hK2, htr2, hf2, hun2, hum2, hw2⟩ := hadd t' (s1.unmapped + okSum calls) (s1.unacc + okSum calls) hG
    (by rw [ht]) (by rw [ht]) (by rw [ht]) (by rw [ht]) (by rw [hu1]; omega)
  have hfr : t'.free = (s.tr id).free := by rw [ht]
  have hloc : t'.loc = (s.tr id).loc := by rw [ht]
  unfold handleReleaseFree
  rw [e1]
  simp only []
  rw [ht1, er]
  simp only []
  rw [e2]
  refine ⟨s2, calls, rfl, hK2, ⟨?_, hf2, by omega, ?_⟩, releaseFree_calls hid (h.g hid) h1 h3, by omega⟩
  · intro x
    rw [htr2]
    by_cases hx : x = id
    · subst hx; rw [upd_same]; exact ⟨hfr, hloc⟩
    · rw [upd_ne _ _ hx]; exact ⟨rfl, rfl⟩
  · intro x j
    rw [htr2, inLog_map]
    by_cases hx : x = id
    · subst hx
      rw [upd_same]
      have := h4 j
      unfold PT.Rel at this ⊢
      simp only [true_and]
      rw [this]
      exact ⟨fun h => h.elim Or.inl (fun h => Or.inr (Or.inl h)), fun h => by
        rcases h with h | h | h
        · exact Or.inl h
        · exact Or.inr h
        · exact absurd h (inUB_nil s x j)⟩
    · rw [upd_ne _ _ hx]
      exact ⟨Or.inl, fun h => by
        rcases h with h | h | h
        · exact h
        · exact absurd h.1 hx
        · exact absurd h (inUB_nil s x j)⟩

theorem onCollapseSuccess_spec {s : F} {g : Gh} (h : K N mode s g) {id : Nat} (hid : id ∈ g.held) :
    ∃ s', onCollapseSuccess N mode s id = some s' ∧ K N mode s' g ∧ Rst N s s' [] [] ∧ s'.unacc = s.unacc := by
  unfold onCollapseSuccess
  by_cases hu : (s.tr id).unbroken = true
  · rw [if_pos hu]; exact ⟨s, rfl, h, Rst.refl s, rfl⟩
  · rw [if_neg hu]
    obtain ⟨s1, e1, ht1, hu1, hv1, hadd⟩ := retouch h hid
    obtain ⟨s2, e2, hK2, htr2, hf2, hun2, hum2, hw2⟩ := hadd { s.tr id with unbroken := true } s1.unmapped s1.unacc
      (G.flags (h.g hid) rfl rfl rfl rfl) rfl rfl rfl rfl (by rw [hu1])
    rw [e1]
    simp only []
    rw [ht1]
    have e2' : addTo N mode (s1.setTr id { s.tr id with unbroken := true }) id = some s2 := e2
    rw [e2']
    refine ⟨s2, rfl, hK2, ⟨?_, hf2, by omega, ?_⟩, by omega⟩
    · intro x
      rw [htr2]
      by_cases hx : x = id
      · subst hx; rw [upd_same]; exact ⟨rfl, rfl⟩
      · rw [upd_ne _ _ hx]; exact ⟨rfl, rfl⟩
    · intro x j
      have : (s2.tr x).Rel j ↔ (s.tr x).Rel j := by
        rw [htr2]
        by_cases hx : x = id
        · subst hx; rw [upd_same]; exact Iff.rfl
        · rw [upd_ne _ _ hx]
      rw [this]; exact rst_none

theorem handleUnbacked_spec {s : F} {g : Gh} (h : K N mode s g) {id : Nat} (hid : id ∈ g.held) {ub : List Word} (hub : WF N ub) :
    ∃ s', handleUnbacked N mode s id ub = some s' ∧ K N mode s' g ∧ Rst N s s' [] [(id, ub)] := by
  obtain ⟨s1, e1, ht1, hu1, hv1, hadd⟩ := retouch h hid
  obtain ⟨t', c, er, hG, h1, h2, h3, r, c', ht⟩ := markSubreleased_spec (h.g hid) hub
  obtain ⟨s2, e2, hK2, htr2, hf2, hun2, hum2, hw2⟩ := hadd t' (s1.unmapped + c) (s1.unacc + c) hG
    (by rw [ht]) (by rw [ht]) (by rw [ht]) (by rw [ht]) (by rw [hu1]; omega)
  have hfr : t'.free = (s.tr id).free := by rw [ht]
  have hloc : t'.loc = (s.tr id).loc := by rw [ht]
  unfold handleUnbacked
  rw [e1]
  simp only []
  rw [ht1, er]
  simp only []
  rw [e2]
  refine ⟨s2, rfl, hK2, ⟨?_, hf2, by omega, ?_⟩⟩
  · intro x
    rw [htr2]
    by_cases hx : x = id
    · subst hx; rw [upd_same]; exact ⟨hfr, hloc⟩
    · rw [upd_ne _ _ hx]; exact ⟨rfl, rfl⟩
  · intro x j
    rw [htr2]
    by_cases hx : x = id
    · subst hx
      rw [upd_same]
      have := h1 j
      unfold PT.Rel at this ⊢
      simp only []
      rw [this]
      constructor
      · rintro (h | h)
        · exact Or.inl h
        · exact Or.inr (Or.inr ⟨ub, by simp, h⟩)
      · rintro (h | h | ⟨w, hw, h⟩)
        · exact Or.inl h
        · exact absurd h (inLog_nil x j)
        · simp only [List.mem_singleton, Prod.mk.injEq, true_and] at hw
          subst hw
          exact Or.inr h
    · rw [upd_ne _ _ hx]
      exact ⟨Or.inl, fun h => by
        rcases h with h | h | ⟨w, hw, _⟩
        · exact h
        · exact absurd h (inLog_nil x j)
        · simp only [List.mem_singleton, Prod.mk.injEq] at hw
          exact absurd hw.1 hx⟩

theorem restoreFree_spec {s : F} {g : Gh} (h : K N mode s g) (stale : Bool) {o : Obs} (hid : o.id ∈ g.held) (ok : Nat → Bool) :
    ∃ s' log, restoreFree N mode stale s o ok = some (s', log) ∧ K N mode s' g ∧ Rst N s s' log [] ∧ (∀ x ∈ log, CallOk N g x) := by
  unfold restoreFree
  split
  · obtain ⟨s', calls, e, a, b, c, _⟩ := handleReleaseFree_spec h hid ok
    exact ⟨s', _, e, a, b, c⟩
  · exact ⟨s, [], rfl, h, Rst.refl s, by simp⟩

theorem callOk_treat {g : Gh} {t} {x : Nat × Call} : CallOk N { g with treat := t } x ↔ CallOk N g x := Iff.rfl

theorem restoreOne_spec {s : F} {g : Gh} {o : Obs} {B : List Nat} (h : K N mode s { g with treat := some ([], o.id :: B) })
    (hB : o.id ∉ B) (stale : Bool) (hub : WF N o.unbacked) (ok : Nat → Bool) :
    ∃ s' log, restoreOne N mode stale s o ok = some (s', log) ∧ K N mode s' { g with treat := some ([], B) } ∧
      (∀ x ∈ log, CallOk N g x) ∧
      ∃ ub, Rst N s s' log ub ∧ ∀ y ∈ ub, y = (o.id, o.unbacked) ∧ o.backed = false := by
  have hstep : unpin kCollapse s o.id = { s with tr := upd s.tr o.id { s.tr o.id with dontFree := (s.tr o.id).dontFree &&& (255 ^^^ kCollapse) } } := rfl
  have htr : ∀ x, ∃ p, upd s.tr o.id { s.tr o.id with dontFree := (s.tr o.id).dontFree &&& (255 ^^^ kCollapse) } x =
      { s.tr x with dontFree := p } := by
    intro x
    by_cases hx : x = o.id
    · subst hx; exact ⟨_, upd_same _ _ _⟩
    · exact ⟨_, by rw [upd_ne _ _ hx]⟩
  have hK1 : K N mode (unpin kCollapse s o.id) { g with treat := some ([], B) } := by
    rw [hstep]
    refine h.repin (tm := some ([], B)) htr ?_ ?_
    · intro x hx
      have hp : (s.tr x).dontFree = (if x ∈ ([] : List Nat) then 1 else 0) + (if x ∈ o.id :: B then 2 else 0) := h.pins x hx
      show _ = (if x ∈ ([] : List Nat) then 1 else 0) + (if x ∈ B then 2 else 0)
      by_cases hxo : x = o.id
      · subst hxo
        rw [upd_same]
        simp only []
        rw [hp]
        simp [hB, kCollapse]
      · rw [upd_ne _ _ hxo, hp]
        simp [hxo]
    · intro A' B' e id hid
      simp only [Option.some.injEq, Prod.mk.injEq] at e
      obtain ⟨rfl, rfl⟩ := e
      rcases hid with hid | hid
      · simp at hid
      · exact h.sel [] (o.id :: B) rfl id (Or.inr (List.mem_cons_of_mem _ hid))
  have hR1 : Rst N s (unpin kCollapse s o.id) [] [] := by rw [hstep]; exact Rst.pins htr
  have how : owned s g o.id := h.sel [] (o.id :: B) rfl o.id (Or.inr List.mem_cons_self)
  unfold restoreOne
  simp only []
  generalize unpin kCollapse s o.id = s1 at hK1 hR1 ⊢
  by_cases hN : (s1.tr o.id).free.longestFree = N
  · rw [if_pos hN]
    exact ⟨s1, [], rfl, hK1, by simp, [], hR1, by simp⟩
  · rw [if_neg hN]
    have hheld : o.id ∈ g.held := by
      apply Classical.byContradiction
      intro hc
      have hl : g.live o.id = [] := h.empty hc
      have hG := h.gd o.id how
      have hG' : G N (s.tr o.id) [] := by rw [← hl]; exact hG
      have := (full_iff hG').2 rfl
      rw [(hR1.free o.id).1] at hN
      exact hN this
    have hK2 := hK1.setBacked (id := o.id) hheld o.backed
    have hR2 : Rst N s1 (s1.setTr o.id { s1.tr o.id with hugeBacked := o.backed }) [] [] := by
      refine ⟨?_, rfl, rfl, ?_⟩
      · intro x
        by_cases hx : x = o.id
        · subst hx; rw [setTr_same]; exact ⟨rfl, rfl⟩
        · rw [setTr_ne _ _ hx]; exact ⟨rfl, rfl⟩
      · intro x j
        have : ((s1.setTr o.id { s1.tr o.id with hugeBacked := o.backed }).tr x).Rel j ↔ (s1.tr x).Rel j := by
          by_cases hx : x = o.id
          · subst hx; rw [setTr_same]; exact Iff.rfl
          · rw [setTr_ne _ _ hx]
        rw [this]; exact rst_none
    generalize s1.setTr o.id { s1.tr o.id with hugeBacked := o.backed } = s2 at hK2 hR2 ⊢
    cases hb : o.backed with
    | true =>
      simp only [if_true]
      cases mode with
      | true =>
        simp only [if_true]
        obtain ⟨s3, e3, a, b, _⟩ := onCollapseSuccess_spec hK2 hheld
        rw [e3]
        exact ⟨s3, [], rfl, a, by simp, _, (hR1.trans hR2).trans b, by simp⟩
      | false =>
        simp only [Bool.false_eq_true, if_false]
        exact ⟨s2, [], rfl, hK2, by simp, _, hR1.trans hR2, by simp⟩
    | false =>
      simp only [Bool.false_eq_true, if_false]
      obtain ⟨s3, log, e3, a, b, c⟩ := restoreFree_spec hK2 stale hheld ok
      rw [e3]
      simp only []
      cases mode with
      | true =>
        simp only [if_true]
        obtain ⟨s4, e4, a4, b4⟩ := handleUnbacked_spec a hheld hub
        rw [e4]
        refine ⟨s4, log, rfl, a4, c, [(o.id, o.unbacked)], ?_, by simp⟩
        have := ((hR1.trans hR2).trans b).trans b4
        simpa using this
      | false =>
        simp only [Bool.false_eq_true, if_false]
        exact ⟨s3, log, rfl, a, c, _, (hR1.trans hR2).trans b, by simp⟩

theorem restoreAll_spec {g : Gh} (stale : Bool) (ok : Nat → Nat → Bool) : ∀ (obs : List Obs) (s : F) (log : Log),
    K N mode s { g with treat := some ([], obs.map Obs.id) } → (obs.map Obs.id).Nodup → (∀ o ∈ obs, WF N o.unbacked) →
    ∃ s' log', restoreAll N mode stale ok obs s log = some (s', log ++ log') ∧ K N mode s' { g with treat := some ([], []) } ∧
      (∀ x ∈ log', CallOk N g x) ∧
      ∃ ub, Rst N s s' log' ub ∧ ∀ y ∈ ub, ∃ o ∈ obs, y = (o.id, o.unbacked) ∧ o.backed = false := by
  intro obs
  induction obs with
  | nil =>
    intro s log h _ _
    exact ⟨s, [], by simp [restoreAll], h, by simp, [], Rst.refl s, by simp⟩
  | cons o L ih =>
    intro s log h hnd hub
    rw [List.map_cons, List.nodup_cons] at hnd
    obtain ⟨s1, log1, e1, a1, c1, u1, b1, d1⟩ := restoreOne_spec (B := L.map Obs.id) h hnd.1 stale (hub o (by simp)) (ok o.id)
    obtain ⟨s2, log2, e2, a2, c2, u2, b2, d2⟩ := ih s1 (log ++ log1) a1 hnd.2 (fun o' ho' => hub o' (by simp [ho']))
    refine ⟨s2, log1 ++ log2, ?_, a2, ?_, _, b1.trans b2, ?_⟩
    · unfold restoreAll; rw [e1]; simp only []; rw [e2, List.append_assoc]
    · intro x hx
      rcases List.mem_append.1 hx with hx | hx
      · exact c1 x hx
      · exact c2 x hx
    · intro y hy
      rcases List.mem_append.1 hy with hy | hy
      · exact ⟨o, by simp, d1 y hy⟩
      · obtain ⟨o', ho', e⟩ := d2 y hy
        exact ⟨o', by simp [ho'], e⟩

theorem treatEnd_spec {s : F} {g : Gh} (h : K N mode s g) {A : List Nat} {obs : List Obs}
    (ht : g.treat = some (A, obs.map Obs.id)) (hnd : (obs.map Obs.id).Nodup) (hub : ∀ o ∈ obs, WF N o.unbacked)
    (stale : Bool) (ok : Nat → Nat → Bool) :
    ∃ s' log, treatEnd N mode stale s A obs ok = some (s', log) ∧ K N mode s' { g with treat := none } ∧
      (∀ x ∈ log, CallOk N g x) ∧
      ∃ ub, Rst N s s' log ub ∧ ∀ y ∈ ub, ∃ o ∈ obs, y = (o.id, o.unbacked) ∧ o.backed = false := by
  obtain ⟨t1, e1, h1⟩ := unpin_fold kSampled A s
  have htr : ∀ x, ∃ p, t1 x = { s.tr x with dontFree := p } := fun x => ⟨_, h1 x⟩
  have hK1 : K N mode { s with tr := t1 } { g with treat := some ([], obs.map Obs.id) } := by
    refine h.repin htr ?_ ?_
    · intro x hx
      have h0 := h.pins x hx
      rw [ht] at h0
      have h0' : (s.tr x).dontFree = (if x ∈ A then 1 else 0) + (if x ∈ obs.map Obs.id then 2 else 0) := h0
      rw [h1 x]
      show (if x ∈ A then (s.tr x).dontFree &&& (255 ^^^ kSampled) else (s.tr x).dontFree) =
        (if x ∈ ([] : List Nat) then 1 else 0) + (if x ∈ obs.map Obs.id then 2 else 0)
      rw [h0']
      by_cases ha : x ∈ A <;> by_cases hb : x ∈ obs.map Obs.id <;>
        simp only [ha, hb, if_true, if_false, kSampled, List.not_mem_nil] <;> rfl
    · intro A' B' e' id hid
      simp only [Option.some.injEq, Prod.mk.injEq] at e'
      obtain ⟨rfl, rfl⟩ := e'
      rcases hid with hid | hid
      · simp at hid
      · exact h.sel _ _ ht id (Or.inr hid)
  obtain ⟨s2, log, e2, a2, c2, u2, b2, d2⟩ := restoreAll_spec (g := g) stale ok obs _ [] hK1 hnd hub
  refine ⟨s2, log, ?_, ?_, c2, _, (Rst.pins htr).trans b2, d2⟩
  · unfold treatEnd; rw [e1, e2, List.nil_append]
  · have := a2.repin (tr' := s2.tr) (tm := none) (fun x => ⟨_, rfl⟩) ?_ (fun A B e => by simp at e)
    · exact this
    · intro x hx
      have hp : (s2.tr x).dontFree = (if x ∈ ([] : List Nat) then 1 else 0) + (if x ∈ ([] : List Nat) then 2 else 0) := a2.pins x hx
      rw [hp]
      simp [mask]

end Verif.Filler
