import Verif.Filler.Get
/-! `Put`, the kernel's answer to it, and fetching freed trackers. -/
namespace Verif.Filler
open Verif.Bitmap Verif.RangeTracker Verif.PageTracker Verif.HintedLists

variable {N : Nat} {mode : Bool}

theorem mem_mid {α : Type} {A B : List α} {x y : α} : y ∈ A ++ x :: B ↔ y = x ∨ y ∈ A ++ B := by
  simp only [List.mem_append, List.mem_cons]
  constructor
  · rintro (h | h | h) <;> simp [h]
  · rintro (h | h | h) <;> simp [h]

theorem sumOn_mid (f : Nat → Nat) (A B : List Nat) (x : Nat) : sumOn f (A ++ x :: B) = f x + sumOn f (A ++ B) := by
  rw [sumOn_append, sumOn_cons, sumOn_append]; omega

/-- A waiting `Put` ends: the tracker leaves the filler, or is kept for a treatment. -/
theorem K.unflight {s s' : F} {g : Gh} (h : K N mode s g) {A B : List (Nat × Nat)} {id rest : Nat}
    (hf : g.flight = A ++ (id, rest) :: B) {t' : PT}
    (htr : s'.tr = upd s.tr id t') (hG : G N t' []) (hpin : t'.dontFree = (s.tr id).dontFree)
    (hfr : ((s.tr id).dontFree = 0 ∧ s'.freed = s.freed) ∨ s'.freed = id :: s.freed)
    (hhl : s'.hl = s.hl) (hnr : s'.nUsedRel = s.nUsedRel) (hnp : s'.nUsedPart = s.nUsedPart)
    (hsz : s'.size = s.size) (hal : s'.alloc = s.alloc) (hun : s'.unmapped = s.unmapped)
    (hw : ∀ d, s'.nWas d + (if (s.tr id).wasReleased = true ∧ (s.tr id).dense = d then 1 else 0) = s.nWas d) :
    K N mode s' { g with flight := A ++ B } := by
  have hfl : fl g = A.map Prod.fst ++ id :: B.map Prod.fst := by unfold fl; rw [hf]; simp
  have hfl' : fl { g with flight := A ++ B } = A.map Prod.fst ++ B.map Prod.fst := by unfold fl; simp
  have hin : id ∈ fl g := by rw [hfl]; simp
  have hnh := h.flight_not_held hin
  have htid : s'.tr id = t' := by rw [htr, upd_same]
  have htne : ∀ x, x ≠ id → s'.tr x = s.tr x := fun x hx => by rw [htr]; exact upd_ne _ _ hx
  have hh : ∀ x ∈ g.held, x ≠ id := fun x hx e => hnh (e ▸ hx)
  have hnd := h.nd
  rw [hfl] at hnd
  have hp : (g.held ++ ((A.map Prod.fst ++ id :: B.map Prod.fst) ++ s.freed)).Perm
      (id :: (g.held ++ ((A.map Prod.fst ++ B.map Prod.fst) ++ s.freed))) := by
    have : g.held ++ ((A.map Prod.fst ++ id :: B.map Prod.fst) ++ s.freed) =
        (g.held ++ A.map Prod.fst) ++ id :: (B.map Prod.fst ++ s.freed) := by simp
    rw [this]
    have e2 : g.held ++ ((A.map Prod.fst ++ B.map Prod.fst) ++ s.freed) =
        (g.held ++ A.map Prod.fst) ++ (B.map Prod.fst ++ s.freed) := by simp
    rw [e2]
    exact List.perm_middle
  have hnd2 := hp.nodup_iff.1 hnd
  rw [List.nodup_cons] at hnd2
  have hsub : ∀ x, owned s' { g with flight := A ++ B } x → owned s g x := by
    intro x hx
    rcases hx with hx | hx | hx
    · exact Or.inl hx
    · refine Or.inr (Or.inl ?_)
      show x ∈ fl g
      rw [hfl, mem_mid]
      have : x ∈ fl { g with flight := A ++ B } := hx
      rw [hfl'] at this
      exact Or.inr this
    · rcases hfr with ⟨_, e⟩ | e
      · rw [e] at hx; exact Or.inr (Or.inr hx)
      · rw [e] at hx
        rcases List.mem_cons.1 hx with rfl | hx
        · exact Or.inr (Or.inl hin)
        · exact Or.inr (Or.inr hx)
  have hlive : g.live id = [] := h.empty hnh
  refine ⟨?_, ?_, h.held, ?_, ?_, ?_, by rw [hsz]; exact h.size, ?_, ?_, ?_, ?_, ?_, ?_⟩
  · rw [hhl, hnr, hnp]
    exact h.li.congr (fun x hx => htne x (hh x hx))
  · show (g.held ++ (fl { g with flight := A ++ B } ++ s'.freed)).Nodup
    rw [hfl']
    rcases hfr with ⟨_, e⟩ | e
    · rw [e]; exact hnd2.2
    · rw [e]
      have hp2 : (id :: (g.held ++ ((A.map Prod.fst ++ B.map Prod.fst) ++ s.freed))).Perm
          (g.held ++ ((A.map Prod.fst ++ B.map Prod.fst) ++ id :: s.freed)) := by
        have e1 : g.held ++ ((A.map Prod.fst ++ B.map Prod.fst) ++ id :: s.freed) =
          (g.held ++ (A.map Prod.fst ++ B.map Prod.fst)) ++ id :: s.freed := by simp
        have e2 : g.held ++ ((A.map Prod.fst ++ B.map Prod.fst) ++ s.freed) =
          (g.held ++ (A.map Prod.fst ++ B.map Prod.fst)) ++ s.freed := by simp
        rw [e1, e2]
        exact List.perm_middle.symm
      exact hp2.nodup_iff.1 (List.nodup_cons.2 hnd2)
  · intro x hx
    by_cases hxx : x = id
    · subst hxx; rw [htid]; simp only [hlive]; exact hG
    · rw [htne x hxx]; exact h.gd x (hsub x hx)
  · intro x hx; rw [htne x (hh x hx)]; exact h.one x hx
  · intro x hx; rw [htne x (hh x hx)]; exact h.don x hx
  · intro d
    rw [hal, h.alloc d]
    exact sumOn_congr (fun x hx => by unfold usedIn; rw [htne x (hh x hx)])
  · rw [hun, h.unm]
    exact sumOn_congr (fun x hx => by unfold relIn; rw [htne x (hh x hx)])
  · intro d
    have h1 := h.was d
    have h2 := hw d
    rw [hfl, sumOn_append, sumOn_mid] at h1
    show s'.nWas d = sumOn (wasIn s'.tr d) (g.held ++ fl { g with flight := A ++ B })
    rw [hfl', sumOn_append]
    have hne2 : ∀ x ∈ A.map Prod.fst ++ B.map Prod.fst, x ≠ id := by
      intro x hx e
      subst e
      apply hnd2.1
      simp only [List.mem_append] at hx ⊢
      exact Or.inr (Or.inl hx)
    have e1 : sumOn (wasIn s'.tr d) g.held = sumOn (wasIn s.tr d) g.held :=
      sumOn_congr (fun x hx => by unfold wasIn; rw [htne x (hh x hx)])
    have e2 : sumOn (wasIn s'.tr d) (A.map Prod.fst ++ B.map Prod.fst) =
        sumOn (wasIn s.tr d) (A.map Prod.fst ++ B.map Prod.fst) :=
      sumOn_congr (fun x hx => by unfold wasIn; rw [htne x (hne2 x hx)])
    have e3 : wasIn s.tr d id = if (s.tr id).wasReleased = true ∧ (s.tr id).dense = d then 1 else 0 := rfl
    omega
  · intro x hx
    by_cases hxx : x = id
    · subst hxx; rw [htid, hpin]; exact h.pins x (hsub x hx)
    · rw [htne x hxx]; exact h.pins x (hsub x hx)
  · intro A' B' e x hx
    have ho := h.sel A' B' e x hx
    have hm : x ≠ id ∨ s'.freed = id :: s.freed := by
      rcases hfr with ⟨a, _⟩ | a
      · left
        rintro rfl
        have := h.pins x ho
        rw [a, e] at this
        have h2 : (if x ∈ A' then 1 else 0) + (if x ∈ B' then 2 else 0) = 0 := this.symm
        rcases hx with hx | hx
        · rw [if_pos hx] at h2; omega
        · rw [if_pos hx] at h2; omega
      · exact Or.inr a
    rcases ho with ho | ho | ho
    · exact Or.inl ho
    · have ho' : x ∈ fl g := ho
      rw [hfl, mem_mid] at ho'
      rcases ho' with rfl | ho'
      · rcases hm with hm | hm
        · exact absurd rfl hm
        · exact Or.inr (Or.inr (by rw [hm]; simp))
      · refine Or.inr (Or.inl ?_)
        show x ∈ fl { g with flight := A ++ B }
        rw [hfl']; exact ho'
    · refine Or.inr (Or.inr ?_)
      rcases hfr with ⟨_, e⟩ | e
      · rw [e]; exact ho
      · rw [e]; exact List.mem_cons_of_mem _ ho
  · intro x hx
    have hxx : x.1 ≠ id := by
      intro e
      apply hnd2.1
      have : x.1 ∈ fl { g with flight := A ++ B } := List.mem_map.2 ⟨x, hx, rfl⟩
      rw [hfl'] at this
      rw [← e]
      simp only [List.mem_append] at this ⊢
      exact Or.inr (Or.inl this)
    rw [htne _ hxx]
    refine h.rest x ?_
    rw [hf, mem_mid]; exact Or.inr hx

/-- The end of `Put` for an empty hugepage: it is returned exactly if no treatment holds it. -/
theorem putEmpty_spec {s : F} {g : Gh} (h : K N mode s g) {A B : List (Nat × Nat)} {id rest : Nat}
    (hf : g.flight = A ++ (id, rest) :: B) :
    ∃ s', putEmpty N mode s id = some (s', .done (if (s.tr id).dontFree = 0 then some id else none)) ∧
      K N mode s' { g with flight := A ++ B } ∧
      s'.freed = (if (s.tr id).dontFree = 0 then s.freed else id :: s.freed) ∧
      s'.unacc = s.unacc ∧ (∀ x, x ≠ id → s'.tr x = s.tr x) ∧ (s'.tr id).loc = (s.tr id).loc := by
  have hin : id ∈ fl g := by unfold fl; rw [hf]; simp
  have hnh := h.flight_not_held hin
  have hG : G N (s.tr id) [] := by have := h.gd id (Or.inr (Or.inl hin)); rw [h.empty hnh] at this; exact this
  have hlong := (full_iff hG).2 rfl
  have hused := (empty_counts hG).1
  -- the state after the bookkeeping of `was_released`
  have key : ∀ s1 : F, (∃ t', s1.tr = upd s.tr id t' ∧ G N t' [] ∧ t'.dontFree = (s.tr id).dontFree ∧
        t'.loc = (s.tr id).loc) →
      s1.freed = s.freed → s1.hl = s.hl → s1.nUsedRel = s.nUsedRel → s1.nUsedPart = s.nUsedPart → s1.size = s.size →
      s1.alloc = s.alloc → s1.unmapped = s.unmapped → s1.unacc = s.unacc →
      (∀ d, s1.nWas d + (if (s.tr id).wasReleased = true ∧ (s.tr id).dense = d then 1 else 0) = s.nWas d) →
      ∃ s', (if (s1.tr id).dontFree = 0 then some (s1, PutRes.done (some id)) else putBack N mode s1 id) =
          some (s', .done (if (s.tr id).dontFree = 0 then some id else none)) ∧
        K N mode s' { g with flight := A ++ B } ∧
        s'.freed = (if (s.tr id).dontFree = 0 then s.freed else id :: s.freed) ∧
        s'.unacc = s.unacc ∧ (∀ x, x ≠ id → s'.tr x = s.tr x) ∧ (s'.tr id).loc = (s.tr id).loc := by
    rintro s1 ⟨t', k1, k2, k3, k3'⟩ k4 k5 k6 k7 k8 k9 k10 k11 k12
    have htid : s1.tr id = t' := by rw [k1, upd_same]
    have htne : ∀ x, x ≠ id → s1.tr x = s.tr x := fun x hx => by rw [k1]; exact upd_ne _ _ hx
    rw [htid, k3]
    by_cases hz : (s.tr id).dontFree = 0
    · rw [if_pos hz, if_pos hz, if_pos hz]
      exact ⟨s1, rfl, h.unflight hf k1 k2 k3 (Or.inl ⟨hz, k4⟩) k5 k6 k7 k8 k9 k10 k12, k4, k11, htne, by rw [htid, k3']⟩
    · rw [if_neg hz, if_neg hz, if_neg hz]
      have hl := (full_iff k2).2 rfl
      have hu := (empty_counts k2).1
      unfold putBack addTo
      rw [htid, if_neg (by omega), if_pos hl, if_pos ⟨hu, by rw [k3]; exact hz⟩]
      exact ⟨_, rfl, h.unflight hf (s' := { s1 with freed := id :: s1.freed }) k1 k2 k3 (Or.inr (by simp only [k4])) k5 k6
        k7 k8 k9 k10 k12, by simp only [k4], k11, htne, by simp only [htid, k3']⟩
  unfold putEmpty
  simp only []
  by_cases hw : (s.tr id).wasReleased = true
  · rw [if_pos hw]
    have hle : 1 ≤ s.nWas (s.tr id).dense := by
      rw [h.was]
      have := sumOn_mem_le (f := wasIn s.tr (s.tr id).dense) (L := g.held ++ fl g) (x := id) (by simp [hin])
      have e : wasIn s.tr (s.tr id).dense id = 1 := by unfold wasIn; rw [if_pos ⟨hw, rfl⟩]
      omega
    rw [subCount_le hle]
    simp only []
    refine key { s.setTr id { s.tr id with wasReleased := false } with
        nWas := upd s.nWas (s.tr id).dense (s.nWas (s.tr id).dense - 1) }
      ⟨{ s.tr id with wasReleased := false }, rfl, G.flags hG rfl rfl rfl rfl, rfl, rfl⟩ rfl rfl rfl rfl rfl rfl rfl rfl ?_
    intro d
    simp only []
    by_cases hd : d = (s.tr id).dense
    · rw [hd, upd_same, if_pos ⟨hw, rfl⟩]; omega
    · rw [upd_ne _ _ hd, if_neg (fun hc => hd hc.2.symm)]; rfl
  · rw [if_neg hw]
    refine key s ⟨s.tr id, Eq.symm (upd_self _ _), hG, rfl, rfl⟩ rfl rfl rfl rfl rfl rfl rfl rfl ?_
    intro d
    rw [if_neg (fun hc => hw hc.1)]; rfl

theorem K.unacc {s : F} {g : Gh} (h : K N mode s g) (x : Nat) : K N mode { s with unacc := x } g :=
  ⟨h.li, h.nd, h.held, h.gd, h.one, h.don, h.size, h.alloc, h.unm, h.was, h.pins, h.sel, h.rest⟩

/-- The kernel's answer. -/
theorem putAnswer_spec {s : F} {g : Gh} (h : K N mode s g) {A B : List (Nat × Nat)} {id rest : Nat}
    (hf : g.flight = A ++ (id, rest) :: B) (ok : Bool) :
    ∃ s', putAnswer N mode s id rest ok = some (s', .done (if (s.tr id).dontFree = 0 then some id else none)) ∧
      K N mode s' { g with flight := A ++ B } ∧
      s'.freed = (if (s.tr id).dontFree = 0 then s.freed else id :: s.freed) ∧
      s'.unacc = s.unacc + (if ok then rest else 0) ∧ (∀ x, x ≠ id → s'.tr x = s.tr x) ∧
      (s'.tr id).loc = (s.tr id).loc := by
  unfold putAnswer
  cases ok with
  | true =>
    simp only [if_true]
    obtain ⟨s', e, h1, h2, h3, h4, h5⟩ := putEmpty_spec (h.unacc (s.unacc + rest)) hf
    exact ⟨s', e, h1, h2, h3, h4, h5⟩
  | false =>
    simp only [Bool.false_eq_true, if_false]
    exact putEmpty_spec h hf

/-- The hugepage becomes empty: it leaves the lists and the totals. -/
theorem K.drop {s s' : F} {g : Gh} (h : K N mode s g) {id : Nat} (hid : id ∈ g.held) {t' : PT}
    (htr : s'.tr = upd s.tr id t') (hfr : s'.freed = s.freed)
    (li : LI N mode s.tr s'.hl s'.nUsedRel s'.nUsedPart (g.held.erase id)) (hG : G N t' [])
    (hd : t'.dense = (s.tr id).dense) (hwr : t'.wasReleased = (s.tr id).wasReleased)
    (hpin : t'.dontFree = (s.tr id).dontFree) (hrel : t'.relCount = (s.tr id).relCount)
    (hsz : s'.size + 1 = s.size)
    (ha : ∀ d, s'.alloc d + (if (s.tr id).dense = d then (s.tr id).free.nused else 0) = s.alloc d)
    (hu : s'.unmapped + (s.tr id).relCount = s.unmapped) (hw : s'.nWas = s.nWas) :
    K N mode s' { g with live := upd g.live id [], held := g.held.erase id,
                         flight := (id, N - t'.relCount) :: g.flight } := by
  have htid : s'.tr id = t' := by rw [htr, upd_same]
  have htne : ∀ x, x ≠ id → s'.tr x = s.tr x := fun x hx => by rw [htr]; exact upd_ne _ _ hx
  have hni : id ∉ g.held.erase id := h.held_nd.not_mem_erase
  have hh : ∀ x ∈ g.held.erase id, x ≠ id := fun x hx e => hni (e ▸ hx)
  have hp := List.perm_cons_erase hid
  have hown : ∀ x, (x ∈ g.held.erase id ∨ x ∈ ((id, N - t'.relCount) :: g.flight).map Prod.fst ∨ x ∈ s'.freed) →
      owned s g x := by
    rintro x (hx | hx | hx)
    · exact Or.inl (List.mem_of_mem_erase hx)
    · rw [List.map_cons, List.mem_cons] at hx
      rcases hx with rfl | hx
      · exact Or.inl hid
      · exact Or.inr (Or.inl hx)
    · rw [hfr] at hx; exact Or.inr (Or.inr hx)
  refine ⟨?_, ?_, ?_, ?_, ?_, ?_, ?_, ?_, ?_, ?_, ?_, ?_, ?_⟩
  · exact li.congr (fun x hx => htne x (hh x hx))
  · show (g.held.erase id ++ ((id :: fl g) ++ s'.freed)).Nodup
    rw [hfr]
    have : (g.held ++ (fl g ++ s.freed)).Perm (g.held.erase id ++ ((id :: fl g) ++ s.freed)) := by
      refine (hp.append_right _).trans ?_
      rw [List.cons_append, List.cons_append]
      exact List.perm_middle.symm
    exact this.nodup_iff.1 h.nd
  · intro x
    simp only []
    by_cases hx : x = id
    · subst hx; rw [upd_same]; simp [hni]
    · rw [upd_ne _ _ hx, List.mem_erase_of_ne hx]; exact h.held x
  · intro x hx
    simp only []
    by_cases hxx : x = id
    · subst hxx; rw [upd_same, htid]; exact hG
    · rw [upd_ne _ _ hxx, htne x hxx]; exact h.gd x (hown x hx)
  · intro x hx
    have hx' : x ∈ g.held.erase id := hx
    simp only []
    rw [upd_ne _ _ (hh x hx'), htne x (hh x hx')]; exact h.one x (List.mem_of_mem_erase hx')
  · intro x hx
    have hx' : x ∈ g.held.erase id := hx
    rw [htne x (hh x hx')]; exact h.don x (List.mem_of_mem_erase hx')
  · simp only []
    have := hp.length_eq
    rw [List.length_cons] at this
    have := h.size
    omega
  · intro d
    have h1 := sumOn_erase (f := usedIn s.tr d) hid
    have h2 : sumOn (usedIn s'.tr d) (g.held.erase id) = sumOn (usedIn s.tr d) (g.held.erase id) :=
      sumOn_congr (fun x hx => by unfold usedIn; rw [htne x (hh x hx)])
    have h3 := ha d
    have h4 := h.alloc d
    have h5 : usedIn s.tr d id = if (s.tr id).dense = d then (s.tr id).free.nused else 0 := rfl
    simp only []
    omega
  · have h1 := sumOn_erase (f := relIn s.tr) hid
    have h2 : sumOn (relIn s'.tr) (g.held.erase id) = sumOn (relIn s.tr) (g.held.erase id) :=
      sumOn_congr (fun x hx => by unfold relIn; rw [htne x (hh x hx)])
    have h4 := h.unm
    have h5 : relIn s.tr id = (s.tr id).relCount := rfl
    simp only []
    omega
  · intro d
    show s'.nWas d = sumOn (wasIn s'.tr d) (g.held.erase id ++ (id :: fl g))
    have h1 : (g.held ++ fl g).Perm (g.held.erase id ++ id :: fl g) := by
      refine (hp.append_right _).trans ?_
      rw [List.cons_append]
      exact List.perm_middle.symm
    rw [hw, h.was d, sumOn_perm h1]
    refine sumOn_congr (fun x hx => ?_)
    unfold wasIn
    by_cases hxx : x = id
    · subst hxx; rw [htid, hd, hwr]
    · rw [htne x hxx]
  · intro x hx
    by_cases hxx : x = id
    · subst hxx; rw [htid, hpin]; exact h.pins x (hown x hx)
    · rw [htne x hxx]; exact h.pins x (hown x hx)
  · intro A B e x hx
    rcases h.sel A B e x hx with a | a | a
    · by_cases hxx : x = id
      · subst hxx; exact Or.inr (Or.inl (by simp))
      · exact Or.inl ((List.mem_erase_of_ne hxx).2 a)
    · refine Or.inr (Or.inl ?_)
      rw [List.map_cons]; exact List.mem_cons_of_mem _ a
    · exact Or.inr (Or.inr (by rw [hfr]; exact a))
  · intro x hx
    rcases List.mem_cons.1 hx with rfl | hx
    · simp only [htid]
      have := G.used_rel hG
      omega
    · have hxx : x.1 ≠ id := by
        intro e
        have hin : x.1 ∈ fl g := List.mem_map.2 ⟨x, hx, rfl⟩
        exact h.flight_not_held hin (by rw [e]; exact hid)
      rw [htne _ hxx]; exact h.rest x hx

/-- What a `Put` that leaves tracker `id` with the live runs `L` answers. -/
def putOutcome (N : Nat) (s : F) (id : Nat) (L : List Alloc) : PutRes :=
  if L ≠ [] then .done none
  else if 0 < (s.tr id).relCount ∧ (s.tr id).relCount < N then .wait (N - (s.tr id).relCount)
  else .done (if (s.tr id).dontFree = 0 then some id else none)

/-- Everything about `Put`. -/
theorem put_full {s : F} {g : Gh} (h : K N mode s g) {id : Nat} {A B : List Alloc} {a : Alloc}
    (hl : g.live id = A ++ a :: B) :
    ∃ s', put N mode s id ((s.tr id).firstPage N + a.i) a.n a.objs = some (s', putOutcome N s id (A ++ B)) ∧
      K N mode s' (g.put id (A ++ B) (putOutcome N s id (A ++ B))) ∧
      s'.freed = (if A ++ B = [] ∧ ¬ (0 < (s.tr id).relCount ∧ (s.tr id).relCount < N) ∧ (s.tr id).dontFree ≠ 0
        then id :: s.freed else s.freed) ∧
      s'.unacc = s.unacc ∧ (∀ x, x ≠ id → s'.tr x = s.tr x) ∧ (s'.tr id).loc = (s.tr id).loc := by
  have hid : id ∈ g.held := (h.held id).2 (by rw [hl]; simp)
  have hG := h.g hid
  rw [hl] at hG
  obtain ⟨t', e, hG', _, _, hrc, hnu, hna, f, o, ht⟩ := put_spec hG
  have f1 : t'.dense = (s.tr id).dense := by rw [ht]
  have f2 : t'.wasReleased = (s.tr id).wasReleased := by rw [ht]
  have f3 : t'.dontFree = (s.tr id).dontFree := by rw [ht]
  have f4 : t'.loc = (s.tr id).loc := by rw [ht]
  obtain ⟨hl1, nr1, np1, er, hli⟩ := removeFrom_spec h.li hid (h.v hid)
  unfold put
  rw [er]
  simp only []
  rw [e]
  have hle : a.n ≤ s.alloc (s.tr id).dense := by
    have h1 := sumOn_mem_le (f := usedIn s.tr (s.tr id).dense) hid
    have h2 := h.alloc (s.tr id).dense
    have h3 : usedIn s.tr (s.tr id).dense id = (s.tr id).free.nused := by unfold usedIn; rw [if_pos rfl]
    omega
  rw [subCount_le hle]
  simp only []
  have hal : ∀ d, upd s.alloc t'.dense (s.alloc (s.tr id).dense - a.n) d +
      (if (s.tr id).dense = d then (s.tr id).free.nused else 0) =
      s.alloc d + (if (s.tr id).dense = d then t'.free.nused else 0) := by
    intro d
    rw [f1]
    by_cases hd : d = (s.tr id).dense
    · rw [hd, upd_same, if_pos rfl, if_pos rfl]; omega
    · rw [upd_ne _ _ hd, if_neg (fun e => hd e.symm), if_neg (fun e => hd e.symm)]
  by_cases hne : A ++ B = []
  · -- empty
    rw [hne] at hG' ⊢
    have hlong := (full_iff hG').2 rfl
    have hcnt := empty_counts hG'
    rw [if_pos hlong, if_pos hcnt.2]
    have hsz : 1 ≤ s.size := by rw [h.size]; exact List.length_pos_of_mem hid
    simp only [F.setTr]
    rw [subCount_le hsz]
    simp only []
    have hun : (s.tr id).relCount ≤ s.unmapped := by
      have h1 := sumOn_mem_le (f := relIn s.tr) hid
      have h2 := h.unm
      have h3 : relIn s.tr id = (s.tr id).relCount := rfl
      omega
    generalize hs2 : F.mk (upd s.tr id t') hl1 s.freed nr1 np1 s.nWas
      (upd s.alloc t'.dense (s.alloc (s.tr id).dense - a.n)) (s.size - 1) s.unmapped s.unacc = s2
    have t2 : s2.tr id = t' := by rw [← hs2]; exact upd_same _ _ _
    have hK : K N mode { s2 with unmapped := s.unmapped - (s.tr id).relCount }
        { g with live := upd g.live id [], held := g.held.erase id, flight := (id, N - t'.relCount) :: g.flight } := by
      refine h.drop hid (t' := t') (by rw [← hs2]) (by rw [← hs2]) (by rw [← hs2]; exact hli) hG' f1 f2 f3 hrc
        (by rw [← hs2]; simp only []; omega) ?_ (by simp only []; omega) (by rw [← hs2])
      intro d
      have := hal d
      rw [hcnt.1] at this
      rw [← hs2]
      simp only []
      simpa using this
    have hfp : freePages N t' = N := by unfold freePages; rw [hcnt.1]; rfl
    have hrN : t'.relCount ≤ N := by have := G.used_rel hG'; omega
    have hend : ∃ s', putEmpty N mode { s2 with unmapped := s.unmapped - (s.tr id).relCount } id =
          some (s', .done (if (s.tr id).dontFree = 0 then some id else none)) ∧
        K N mode s' { g with live := upd g.live id [], held := g.held.erase id, flight := g.flight } ∧
        s'.freed = (if (s.tr id).dontFree = 0 then s.freed else id :: s.freed) ∧
        s'.unacc = s.unacc ∧ (∀ x, x ≠ id → s'.tr x = s.tr x) ∧ (s'.tr id).loc = (s.tr id).loc := by
      obtain ⟨s', e', k1, k2, k3, k4, k5⟩ := putEmpty_spec hK (A := []) (B := g.flight) (id := id) (rest := N - t'.relCount) rfl
      simp only [t2, f3] at e' k2
      refine ⟨s', e', k1, ?_, ?_, ?_, ?_⟩
      · rw [k2, ← hs2]
      · rw [k3, ← hs2]
      · intro x hx; rw [k4 x hx, ← hs2]; exact upd_ne _ _ hx
      · rw [k5]; simp only [t2]; exact f4
    unfold putReleased putOutcome Gh.put wait
    simp only [t2, hrc, hfp, hne, ne_eq, not_true, if_false, if_true, true_and]
    by_cases hr : (s.tr id).relCount > 0
    · rw [if_pos hr, if_pos (by omega)]
      have hun2 : s2.unmapped = s.unmapped := by rw [← hs2]
      rw [hun2, subCount_le hun]
      simp only []
      by_cases hr2 : (s.tr id).relCount < N
      · rw [if_pos hr2, if_pos ⟨hr, hr2⟩, if_neg (fun hc => hc.1 ⟨hr, hr2⟩)]
        refine ⟨_, rfl, ?_, by rw [← hs2], by rw [← hs2], fun x hx => by rw [← hs2]; exact upd_ne _ _ hx, ?_⟩
        · rw [hrc] at hK; exact hK
        · simp only [t2]; exact f4
      · rw [if_neg hr2, if_neg (fun hc => hr2 hc.2)]
        obtain ⟨s', e', k1, k2, k3⟩ := hend
        refine ⟨s', e', k1, ?_, k3⟩
        rw [k2]
        by_cases hz : (s.tr id).dontFree = 0
        · rw [if_pos hz, if_neg (fun hc => hc.2 hz)]
        · rw [if_neg hz, if_pos ⟨fun hc => hr2 hc.2, hz⟩]
    · rw [if_neg hr, if_neg (fun hc => hr hc.1)]
      have hz0 : (s.tr id).relCount = 0 := by omega
      have hs2e : { s2 with unmapped := s.unmapped - (s.tr id).relCount } = s2 := by
        rw [hz0, Nat.sub_zero, ← hs2]
      rw [hs2e] at hend
      obtain ⟨s', e', k1, k2, k3⟩ := hend
      refine ⟨s', e', k1, ?_, k3⟩
      rw [k2]
      by_cases hz : (s.tr id).dontFree = 0
      · rw [if_pos hz, if_neg (fun hc => hc.2 hz)]
      · rw [if_neg hz, if_pos ⟨fun hc => hr hc.1, hz⟩]
  · have hlong : t'.free.longestFree ≠ N := fun e => hne ((full_iff hG').1 e)
    rw [if_neg hlong]
    unfold putBack
    obtain ⟨hl2, nr2, np2, e2, hli2⟩ := readd hid h.held_nd
      (s := ({ ({ s with hl := hl1, nUsedRel := nr1, nUsedPart := np1 } : F).setTr id t' with
        alloc := upd s.alloc t'.dense (s.alloc (s.tr id).dense - a.n) } : F)) (t := t') hli rfl rfl rfl rfl
      (G.v hG' hne)
    rw [e2]
    unfold putOutcome Gh.put wait
    simp only [hne, ne_eq, not_false_eq_true, if_true, if_false, false_and]
    refine ⟨_, rfl, ?_, rfl, rfl, fun x hx => upd_ne _ _ hx, by simp only [upd_same]; exact f4⟩
    refine h.modify hid (t' := { t' with donated := false }) rfl rfl rfl hli2 (G.flags hG' rfl rfl rfl rfl) hne f1 ?_
      (fun hc => by simp at hc) f3 hal ?_ ?_
    · intro hd x hx
      have hd' : (s.tr id).dense = true := f1 ▸ hd
      refine h.one id hid hd' x ?_
      rw [hl, mem_mid]; exact Or.inr hx
    · show s.unmapped + _ = s.unmapped + t'.relCount
      rw [hrc]
    · intro d
      simp only [f2]; rfl

/-- Fetching a freed tracker when no treatment is in progress. -/
theorem fetch_spec {s : F} {g : Gh} (h : K N mode s g) (hnt : g.treat = none) : K N mode (fetchFreed s).1 g := by
  unfold fetchFreed
  split
  · exact h
  · next id L hL =>
    refine ⟨h.li, ?_, h.held, ?_, h.one, h.don, h.size, h.alloc, h.unm, h.was, ?_, ?_, h.rest⟩
    · have := h.nd
      rw [hL] at this
      have hp : (g.held ++ (fl g ++ id :: L)).Perm (id :: (g.held ++ (fl g ++ L))) := by
        have e1 : g.held ++ (fl g ++ id :: L) = (g.held ++ fl g) ++ id :: L := by simp
        have e2 : g.held ++ (fl g ++ L) = (g.held ++ fl g) ++ L := by simp
        rw [e1, e2]; exact List.perm_middle
      exact (List.nodup_cons.1 (hp.nodup_iff.1 this)).2
    · intro x hx
      refine h.gd x ?_
      rcases hx with a | a | a
      · exact Or.inl a
      · exact Or.inr (Or.inl a)
      · exact Or.inr (Or.inr (by rw [hL]; exact List.mem_cons_of_mem _ a))
    · intro x hx
      refine h.pins x ?_
      rcases hx with a | a | a
      · exact Or.inl a
      · exact Or.inr (Or.inl a)
      · exact Or.inr (Or.inr (by rw [hL]; exact List.mem_cons_of_mem _ a))
    · intro A B e; rw [hnt] at e; simp at e

end Verif.Filler
