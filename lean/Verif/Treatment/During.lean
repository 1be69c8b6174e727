import Verif.Treatment.Model
import Verif.Filler.Extra
/-! While the kernel collapses a hugepage, nothing of it is released: helper lemmas. -/
namespace Verif.Treatment
open Verif.Bitmap Verif.RangeTracker Verif.PageTracker Verif.HintedLists Verif.Filler

variable {N : Nat} {mode : Bool}

theorem addTo_rel {s s' : F} {id : Nat} (e : addTo N mode s id = some s') (x : Nat) :
    (s'.tr x).relCount = (s.tr x).relCount := by
  unfold addTo at e
  simp only [] at e
  repeat' split at e
  all_goals first
    | (cases e; done)
    | (cases e; rfl)
    | (cases e; simp only [F.setTr, upd]; split <;> simp_all)

theorem donateTo_rel {s s' : F} {id : Nat} (e : donateTo N s id = some s') (x : Nat) :
    (s'.tr x).relCount = (s.tr x).relCount := by
  unfold donateTo at e
  repeat' split at e
  all_goals first
    | (cases e; done)
    | (cases e; simp only [F.setTr, upd]; split <;> simp_all)

theorem putBack_rel {s s' : F} {id : Nat} {r : PutRes} (e : putBack N mode s id = some (s', r)) (x : Nat) :
    (s'.tr x).relCount = (s.tr x).relCount := by
  unfold putBack at e
  split at e
  · cases e
  · next s1 e1 => cases e; exact addTo_rel e1 x

theorem setTr_rel {s : F} {id : Nat} {t : PT} (h : t.relCount = (s.tr id).relCount) (x : Nat) :
    ((s.setTr id t).tr x).relCount = (s.tr x).relCount := by
  simp only [F.setTr, upd]
  split
  · next hx => rw [hx, h]
  · rfl

theorem putEmpty_rel {s s' : F} {id : Nat} {r : PutRes} (e : putEmpty N mode s id = some (s', r)) (x : Nat) :
    (s'.tr x).relCount = (s.tr x).relCount := by
  unfold putEmpty at e
  simp only [] at e
  split at e
  · split at e
    · cases e
    · split at e
      · cases e; exact setTr_rel (s := s) (id := id) (t := { s.tr id with wasReleased := false }) rfl x
      · rw [putBack_rel e x]; exact setTr_rel (s := s) (id := id) (t := { s.tr id with wasReleased := false }) rfl x
  · split at e
    · cases e; rfl
    · exact putBack_rel e x

theorem putReleased_rel {s s' : F} {id : Nat} {r : PutRes} (e : putReleased N mode s id = some (s', r)) (x : Nat) :
    (s'.tr x).relCount = (s.tr x).relCount := by
  unfold putReleased at e
  simp only [] at e
  repeat' split at e
  all_goals first
    | (cases e; done)
    | (cases e; rfl)
    | exact putEmpty_rel e x
    | (have := putEmpty_rel e x; exact this)

theorem put_rel {s s' : F} {id p n objs : Nat} {r : PutRes} (e : Filler.put N mode s id p n objs = some (s', r)) (x : Nat) :
    (s'.tr x).relCount = (s.tr x).relCount := by
  unfold Filler.put at e
  split at e
  · cases e
  · next s1 e1 =>
    have htr := removeFrom_tr e1
    split at e
    · next t a h1 h2 =>
      have ht : t.relCount = (s1.tr id).relCount := by
        unfold PageTracker.put at h1
        split at h1
        · cases h1
        · split at h1
          · cases h1; rfl
          · cases h1
      have hx : ((s1.setTr id t).tr x).relCount = (s.tr x).relCount := by rw [setTr_rel ht, htr]
      simp only [] at e
      repeat' split at e
      all_goals first
        | (cases e; done)
        | (rw [putReleased_rel e x]; exact hx)
        | (rw [putBack_rel e x]; exact hx)
    · cases e

theorem putAnswer_rel {s s' : F} {id rest : Nat} {ok : Bool} {r : PutRes} (e : putAnswer N mode s id rest ok = some (s', r)) (x : Nat) :
    (s'.tr x).relCount = (s.tr x).relCount := by
  unfold putAnswer at e
  rw [putEmpty_rel e x]
  split <;> rfl

theorem contribute_rel {s s' : F} {id : Nat} {t : PT} {donated dense : Bool} (e : contribute N mode s id t donated dense = some s')
    (x : Nat) (hx : (s.tr x).relCount = 0) : (s'.tr x).relCount = 0 := by
  unfold contribute at e
  split at e
  · next hc =>
    simp only [] at e
    have hs : ∀ t' : PT, t'.relCount = 0 → ((s.setTr id t').tr x).relCount = 0 := by
      intro t' h'
      simp only [F.setTr, upd]
      split
      · exact h'
      · exact hx
    split at e
    · split at e
      · obtain ⟨s1, e1, rfl⟩ := Option.map_eq_some_iff.1 e
        show (s1.tr x).relCount = 0
        rw [donateTo_rel e1 x]
        exact hs t hc.1
      · cases e
    · obtain ⟨s1, e1, rfl⟩ := Option.map_eq_some_iff.1 e
      show (s1.tr x).relCount = 0
      rw [addTo_rel e1 x]
      simp only [F.setTr, upd]
      split
      · exact hc.1
      · exact hx
  · cases e

theorem takeLeast_tr {s s' : F} {k : LK} {i : Nat} {r : Option Nat} (e : takeLeast N s k i = some (s', r)) : s'.tr = s.tr := by
  unfold takeLeast at e
  split at e <;> cases e
  rfl

theorem pickReleased_tr {s s' : F} {d : Bool} {li : Nat} {r : Option (Nat × Bool)} (e : pickReleased N s d li = some (s', r)) :
    s'.tr = s.tr := by
  unfold pickReleased at e
  split at e
  · cases e
  · next h => cases e; exact takeLeast_tr h
  · next h =>
    have ht := takeLeast_tr h
    repeat' split at e
    all_goals first
      | (cases e; done)
      | (cases e; exact ht)

theorem pickPartial_tr {s s' : F} {d : Bool} {li : Nat} {r : Option (Nat × Bool)} (e : pickPartial N s d li = some (s', r)) :
    s'.tr = s.tr := by
  unfold pickPartial at e
  split at e
  · cases e
  · next h => rw [pickReleased_tr e]; exact takeLeast_tr h
  · next h =>
    have ht := takeLeast_tr h
    repeat' split at e
    all_goals first
      | (cases e; done)
      | (cases e; exact ht)

theorem pickDonated_tr {s s' : F} {n : Nat} {d : Bool} {li : Nat} {r : Option (Nat × Bool)} (e : pickDonated N s n d li = some (s', r)) :
    s'.tr = s.tr := by
  unfold pickDonated at e
  split at e
  · exact pickPartial_tr e
  · split at e
    · cases e
    · next h => rw [pickPartial_tr e]; exact takeLeast_tr h
    · next h => cases e; exact takeLeast_tr h

theorem pick_tr {s s' : F} {n : Nat} {d : Bool} {li : Nat} {r : Option (Nat × Bool)} (e : Filler.pick N s n d li = some (s', r)) :
    s'.tr = s.tr := by
  unfold Filler.pick at e
  split at e
  · cases e
  · next h => rw [pickDonated_tr e]; exact takeLeast_tr h
  · next h =>
    split at e
    · cases e
    · cases e; exact takeLeast_tr h

theorem get_rel {t t' : PT} {n objs p u : Nat} (e : PageTracker.get N t n objs = some (t', p, u)) (h : t.relCount = 0) :
    t'.relCount = 0 := by
  unfold PageTracker.get at e
  split at e
  · cases e
  · simp only [] at e
    rw [if_neg (by omega)] at e
    cases e
    exact h

theorem finishGet_rel {s s' : F} {n objs id p : Nat} {d w : Bool} (e : finishGet N mode s n objs d id w = some (s', p)) (x : Nat)
    (hx : (s.tr x).relCount = 0) : (s'.tr x).relCount = 0 := by
  unfold finishGet at e
  split at e
  · split at e
    · cases e
    · next t page ub hg =>
      split at e
      · cases e
      · next s2 e2 =>
        have h2 : (s2.tr x).relCount = 0 := by
          rw [addTo_rel e2 x]
          simp only [F.setTr, upd]
          split
          · next h => rw [h] at hx; exact get_rel hg hx
          · exact hx
        have h3 : ((noteWhole { s2 with alloc := upd s2.alloc d (s2.alloc d + n) } id w d).tr x).relCount = 0 := by
          unfold noteWhole
          split
          · exact (setTr_rel (s := s2) (id := id) (t := { s2.tr id with wasReleased := true }) rfl x).trans h2
          · exact h2
        simp only [] at e
        repeat' split at e
        all_goals first
          | (cases e; done)
          | (cases e; exact h3)
  · cases e

theorem tryGet_rel {s s' : F} {n objs : Nat} {d : Bool} {r : Option (Nat × Nat × Bool)} (e : tryGet N mode s n objs d = some (s', r))
    (x : Nat) (hx : (s.tr x).relCount = 0) : (s'.tr x).relCount = 0 := by
  unfold tryGet at e
  split at e
  · split at e
    · cases e
    · split at e
      · cases e
      · next h => cases e; rw [pick_tr h]; exact hx
      · next h =>
        split at e
        · cases e
        · next hf => cases e; exact finishGet_rel hf x (by rw [pick_tr h]; exact hx)
  · cases e

/-! ### Releases -/

theorem push_skip {tr : Nat → PT} {skip : Nat → Bool} {cap x : Nat} (hs : skip x = true) {acc acc' : List Nat} {id : Nat}
    (e : Filler.pushCandidate N tr skip cap acc id = some acc') (hx : x ∉ acc) : x ∉ acc' := by
  unfold Filler.pushCandidate at e
  split at e
  · split at e
    · cases e; exact hx
    · next hsk =>
      have hne : x ≠ id := by rintro rfl; exact hsk hs
      split at e
      · cases e
        simp only [List.mem_append, List.mem_singleton, not_or]
        exact ⟨hx, hne⟩
      · split at e
        · cases e
        · split at e
          · cases e; exact hx
          · cases e
            simp only [List.mem_append, List.mem_singleton, not_or]
            exact ⟨fun h => hx (List.mem_of_mem_erase h), hne⟩
  · cases e

theorem pushes_skip {tr : Nat → PT} {skip : Nat → Bool} {cap x : Nat} (hs : skip x = true) : ∀ (L acc acc' : List Nat),
    L.foldlM (Filler.pushCandidate N tr skip cap) acc = some acc' → x ∉ acc → x ∉ acc' := by
  intro L
  induction L with
  | nil => intro acc acc' e hx; cases e; exact hx
  | cons id L ih =>
    intro acc acc' e hx
    rw [List.foldlM_cons] at e
    obtain ⟨a, e1, e2⟩ := Option.bind_eq_some_iff.1 e
    exact ih a acc' e2 (push_skip hs e1 hx)

theorem selCands_skip {s : F} {skip : Nat → Bool} {x : Nat} (hs : skip x = true) {k : LK} {st : Nat} {acc acc' : List Nat}
    (e : selectCandidates N s skip k st acc = some acc') (hx : x ∉ acc) : x ∉ acc' := by
  unfold selectCandidates at e
  split at e
  · cases e
  · exact pushes_skip hs _ _ _ e hx

theorem candsPartial_skip {s : F} {skip : Nat → Bool} {x : Nat} (hs : skip x = true) {c : List Nat}
    (e : candsPartial N s skip = some c) : x ∉ c := by
  unfold candsPartial at e
  split at e
  · cases e
  · next h => exact selCands_skip hs e (selCands_skip hs h (by simp))

theorem candsWhole_skip {s : F} {skip : Nat → Bool} {x : Nat} (hs : skip x = true) {c : List Nat}
    (e : candsWhole N s skip = some c) : x ∉ c := by
  unfold candsWhole at e
  split at e
  · cases e
  · next h =>
    split at e
    · cases e
    · next h2 => exact selCands_skip hs e (selCands_skip hs h2 (selCands_skip hs h (by simp)))

theorem releaseOne_rel {s s' : F} {id ret : Nat} {ok : Nat → Bool} {calls : List Call}
    (e : releaseOne N mode s id ok = some (s', ret, calls)) {x : Nat} (hx : x ≠ id) : (s'.tr x).relCount = (s.tr x).relCount := by
  unfold releaseOne at e
  split at e
  · cases e
  · next s1 e1 =>
    split at e
    · cases e
    · next t r c _ =>
      simp only [] at e
      split at e
      · split at e
        · cases e
        · next s3 e3 =>
          split at e
          · cases e
          · next s4 e4 =>
            cases e
            have h3 : (s3.tr x).relCount = (s.tr x).relCount := by
              rw [addTo_rel e3 x]
              simp only [F.setTr, upd]
              rw [if_neg hx, removeFrom_tr e1]
            rw [← h3]
            unfold clearWas at e4
            repeat' split at e4
            all_goals first
              | (cases e4; done)
              | (cases e4; rfl)
              | (cases e4; exact setTr_rel (s := s3) (id := id) (t := { s3.tr id with wasReleased := false }) rfl x)
      · cases e

theorem releaseLoop_rel {target : Nat} {ok : Nat → Nat → Bool} {x : Nat} : ∀ (L : List Nat) (s s' : F) (total last k t' k' : Nat) (log log' : Log),
    Filler.releaseLoop N mode target ok L s total last k log = some (s', t', k', log') → x ∉ L →
    (s'.tr x).relCount = (s.tr x).relCount ∧ ∀ c, (x, c) ∈ log' → (x, c) ∈ log := by
  intro L
  induction L with
  | nil => intro s s' total last k t' k' log log' e _; cases e; exact ⟨rfl, fun _ h => h⟩
  | cons id L ih =>
    intro s s' total last k t' k' log log' e hx
    rw [List.mem_cons, not_or] at hx
    unfold Filler.releaseLoop at e
    split at e
    · split at e
      · split at e
        · cases e
        · next h =>
          obtain ⟨h1, h2⟩ := ih _ _ _ _ _ _ _ _ _ e hx.2
          refine ⟨h1.trans (releaseOne_rel h hx.1), fun c hc => ?_⟩
          rcases List.mem_append.1 (h2 c hc) with h | h
          · exact h
          · obtain ⟨d, _, hd⟩ := List.mem_map.1 h
            exact absurd (congrArg Prod.fst hd).symm hx.1
      · cases e
    · cases e; exact ⟨rfl, fun _ h => h⟩

theorem rounds_rel {sel : F → Option (List Nat)} {desired : Nat} {ok : Nat → Nat → Bool} {x : Nat}
    (hsel : ∀ s c, sel s = some c → x ∉ c) : ∀ (m : Nat) (s s' : F) (total k t' k' : Nat) (log log' : Log), desired - total ≤ m →
    rounds N mode sel desired ok s total k log = some (s', t', k', log') →
    (s'.tr x).relCount = (s.tr x).relCount ∧ ∀ c, (x, c) ∈ log' → (x, c) ∈ log := by
  intro m
  induction m with
  | zero =>
    intro s s' total k t' k' log log' hm e
    rw [rounds, dif_neg (by omega)] at e
    cases e; exact ⟨rfl, fun _ h => h⟩
  | succ m ih =>
    intro s s' total k t' k' log log' hm e
    rw [rounds] at e
    split at e
    · split at e
      · cases e
      · next s1 rel k1 log1 hr =>
        have h1 : (s1.tr x).relCount = (s.tr x).relCount ∧ ∀ c, (x, c) ∉ log1 := by
          unfold round at hr
          split at hr
          · cases hr
          · next c hc =>
            unfold releaseCandidates at hr
            have hn : x ∉ sortBy (fun a b => !Filler.better (s.tr b) (s.tr a)) c := fun h =>
              hsel s c hc ((sortBy_perm _ _).mem_iff.1 h)
            obtain ⟨a, b⟩ := releaseLoop_rel _ _ _ _ _ _ _ _ _ _ hr hn
            exact ⟨a, fun c hc => by have := b c hc; simp at this⟩
        have hap : ∀ c, (x, c) ∈ log ++ log1 → (x, c) ∈ log := fun c hc =>
          (List.mem_append.1 hc).resolve_right (h1.2 c)
        split at e
        · cases e; exact ⟨h1.1, hap⟩
        · obtain ⟨a, b⟩ := ih _ _ _ _ _ _ _ _ (by omega) e
          exact ⟨a.trans h1.1, fun c hc => hap c (b c hc)⟩
    · cases e; exact ⟨rfl, fun _ h => h⟩

theorem release_rel {s s' : F} {desired total : Nat} {adj : Option Nat} {skip : Nat → Bool} {ok : Nat → Nat → Bool} {log : Log}
    (e : releasePages N mode s desired adj skip ok = some (s', total, log)) {x : Nat} (hs : skip x = true) :
    (s'.tr x).relCount = (s.tr x).relCount ∧ ∀ c, (x, c) ∉ log := by
  unfold releasePages at e
  simp only [] at e
  split at e
  · cases e; exact ⟨rfl, by simp⟩
  · split at e
    · cases e; exact ⟨rfl, by simp⟩
    · split at e
      · cases e
      · next h1 =>
        split at e
        · cases e
        · next h2 =>
          cases e
          obtain ⟨a1, b1⟩ := rounds_rel (fun s c hc => candsPartial_skip hs hc) _ _ _ _ _ _ _ _ _ (Nat.le_refl _) h1
          obtain ⟨a2, b2⟩ := rounds_rel (fun s c hc => candsWhole_skip hs hc) _ _ _ _ _ _ _ _ _ (Nat.le_refl _) h2
          exact ⟨a2.trans a1, fun c hc => by have := b1 c (b2 c hc); simp at this⟩

end Verif.Treatment
