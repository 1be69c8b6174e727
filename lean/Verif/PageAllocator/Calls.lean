import Verif.PageHeap.Model
/-! If the kernel grants everything, every recorded call succeeded. -/
namespace Verif

theorem PageTracker.releaseLoop_ok {N : Nat} {used : List Bitmap.Word} {ok : Nat → Bool} (hok : ∀ i, ok i = true) :
    ∀ (f : Nat) (rel : List Bitmap.Word) (i c : Nat) (calls : List Call) {r : List Bitmap.Word × Nat × List Call}, N - i ≤ f →
      (∀ x ∈ calls, x.ok = true) → releaseLoop N used rel ok i c calls = some r → ∀ x ∈ r.2.2, x.ok = true := by
  intro f
  induction f with
  | zero =>
    intro rel i c calls r hf hc h
    unfold releaseLoop at h
    repeat' split at h
    all_goals try dsimp only at h
    all_goals repeat' split at h
    all_goals first
      | (cases h; done)
      | (cases h; exact hc)
      | (exfalso; omega)
  | succ f ih =>
    intro rel i c calls r hf hc h
    unfold releaseLoop at h
    repeat' split at h
    all_goals try dsimp only at h
    all_goals repeat' split at h
    all_goals first
      | (cases h; done)
      | (cases h; exact hc)
      | (rename_i hh; rw [hok] at hh; exact absurd rfl hh)
      | (refine ih _ _ _ _ (by omega) ?_ h
         intro x hx
         rcases List.mem_append.1 hx with hx | hx
         · exact hc x hx
         · rw [List.mem_singleton.1 hx])
      | (exact ih _ _ _ _ (by omega) hc h)
      | (exfalso; simp_all; done)

theorem PageTracker.releaseFree_ok {N : Nat} {t t' : PageTracker.PT} {ok : Nat → Bool} (hok : ∀ i, ok i = true) {n : Nat}
    {calls : List PageTracker.Call} (h : PageTracker.releaseFree N t ok = some (t', n, calls)) : ∀ x ∈ calls, x.ok = true := by
  unfold PageTracker.releaseFree at h
  split at h
  · cases h
  · rename_i rel c cs e
    split at h
    · cases h
      exact PageTracker.releaseLoop_ok hok N _ _ _ _ (by omega) (by simp) e
    · cases h

theorem Filler.releaseOne_ok {N : Nat} {mode : Bool} {s s' : Filler.F} {id : Nat} {ok : Nat → Bool} (hok : ∀ i, ok i = true)
    {n : Nat} {calls : List PageTracker.Call} (h : Filler.releaseOne N mode s id ok = some (s', n, calls)) :
    ∀ x ∈ calls, x.ok = true := by
  unfold Filler.releaseOne at h
  repeat' split at h
  all_goals try dsimp only at h
  all_goals repeat' split at h
  all_goals first
    | (cases h; done)
    | (cases h; exact PageTracker.releaseFree_ok hok (by assumption))

theorem Filler.releaseLoop_ok {N : Nat} {mode : Bool} {target : Nat} {ok : Nat → Nat → Bool} (hok : ∀ i j, ok i j = true) :
    ∀ (l : List Nat) (s : Filler.F) (total last k : Nat) (log : Filler.Log) {r : Filler.F × Nat × Nat × Filler.Log},
      (∀ x ∈ log, x.2.ok = true) → Filler.releaseLoop N mode target ok l s total last k log = some r → ∀ x ∈ r.2.2.2, x.2.ok = true := by
  intro l
  induction l with
  | nil => intro s total last k log r hl h; cases h; exact hl
  | cons a l ih =>
    intro s total last k log r hl h
    unfold Filler.releaseLoop at h
    repeat' split at h
    all_goals first
      | (cases h; done)
      | (cases h; exact hl)
      | (rename_i e
         refine ih _ _ _ _ _ ?_ h
         intro x hx
         rcases List.mem_append.1 hx with hx | hx
         · exact hl x hx
         · obtain ⟨c, hc, rfl⟩ := List.mem_map.1 hx
           exact Filler.releaseOne_ok (hok k) e c hc)

theorem Filler.rounds_ok {N : Nat} {mode : Bool} {sel : Filler.F → Option (List Nat)} {desired : Nat} {ok : Nat → Nat → Bool}
    (hok : ∀ i j, ok i j = true) : ∀ (f : Nat) (s : Filler.F) (total k : Nat) (log : Filler.Log)
      {r : Filler.F × Nat × Nat × Filler.Log}, desired - total ≤ f → (∀ x ∈ log, x.2.ok = true) →
      Filler.rounds N mode sel desired ok s total k log = some r → ∀ x ∈ r.2.2.2, x.2.ok = true := by
  intro f
  have hr : ∀ {s : Filler.F} {w k : Nat} {r : Filler.F × Nat × Nat × Filler.Log},
      Filler.round N mode sel s w ok k = some r → ∀ x ∈ r.2.2.2, x.2.ok = true := by
    intro s w k r h
    unfold Filler.round at h
    split at h
    · cases h
    · exact Filler.releaseLoop_ok hok _ _ _ _ _ _ (by simp) h
  induction f with
  | zero =>
    intro s total k log r hf hl h
    unfold Filler.rounds at h
    split at h
    · omega
    · cases h; exact hl
  | succ f ih =>
    intro s total k log r hf hl h
    unfold Filler.rounds at h
    split at h
    · split at h
      · cases h
      · rename_i e
        have hl' := hr e
        have happ : ∀ x ∈ log ++ _, x.2.ok = true := fun x hx => by
          rcases List.mem_append.1 hx with hx | hx
          · exact hl x hx
          · exact hl' x hx
        split at h
        · cases h; exact happ
        · exact ih _ _ _ _ (by omega) happ h
    · cases h; exact hl

theorem Filler.releasePages_ok {N : Nat} {mode : Bool} {s : Filler.F} {desired : Nat} {adj : Option Nat} {skip : Nat → Bool}
    {ok : Nat → Nat → Bool} (hok : ∀ i j, ok i j = true) {r : Filler.F × Nat × Filler.Log}
    (h : Filler.releasePages N mode s desired adj skip ok = some r) : ∀ x ∈ r.2.2, x.2.ok = true := by
  unfold Filler.releasePages at h
  dsimp only at h
  split at h
  · cases h; intro x hx; cases hx
  · split at h
    · cases h; intro x hx; cases hx
    · split at h
      · cases h
      · rename_i e
        have h1 := Filler.rounds_ok hok _ _ _ _ _ (Nat.le_refl _) (by intro x hx; cases hx) e
        split at h
        · cases h
        · rename_i e2
          cases h
          exact Filler.rounds_ok hok _ _ _ _ _ (Nat.le_refl _) h1 e2

theorem HugeRegion.unbackLoop_ok {H N : Nat} {sh ok : Nat → Bool} (hok : ∀ i, ok i = true) :
    ∀ (f : Nat) (r : HugeRegion.R) (i rel : Nat) (calls : List PageTracker.Call) {x : HugeRegion.R × Nat × List PageTracker.Call}, H - i ≤ f →
      (∀ c ∈ calls, c.ok = true) → HugeRegion.unbackLoop H N r sh ok i rel calls = some x → ∀ c ∈ x.2.2, c.ok = true := by
  intro f
  induction f with
  | zero =>
    intro r i rel calls x hf hc h
    unfold HugeRegion.unbackLoop at h
    split at h
    · omega
    · cases h; exact hc
  | succ f ih =>
    intro r i rel calls x hf hc h
    unfold HugeRegion.unbackLoop at h
    repeat' split at h
    all_goals try dsimp only at h
    all_goals repeat' split at h
    all_goals first
      | (cases h; done)
      | (cases h; exact hc)
      | (exact ih _ _ _ _ (by omega) hc h)
      | (refine ih _ _ _ _ (by omega) ?_ h
         intro c hx
         rcases List.mem_append.1 hx with hx | hx
         · exact hc c hx
         · rw [List.mem_singleton.1 hx]; exact hok _)
      | (exfalso; simp_all; done)

theorem HugeRegion.relLoop_ok {H N t : Nat} {ad : Bool} {ok : Nat → Nat → Bool} (hok : ∀ i j, ok i j = true) :
    ∀ (l : List Nat) (s : HugeRegion.S) (rel : Nat) (log : HugeRegion.Log) {x : HugeRegion.S × Nat × HugeRegion.Log},
      (∀ c ∈ log, c.2.ok = true) → HugeRegion.relLoop H N t ad ok l s rel log = some x → ∀ c ∈ x.2.2, c.2.ok = true := by
  intro l
  induction l with
  | nil => intro s rel log x hl h; cases h; exact hl
  | cons a l ih =>
    intro s rel log x hl h
    unfold HugeRegion.relLoop at h
    split at h
    · cases h; exact hl
    · split at h
      · cases h
      · rename_i e
        refine ih _ _ _ ?_ h
        intro y hy
        rcases List.mem_append.1 hy with hy | hy
        · exact hl y hy
        · obtain ⟨c, hc, rfl⟩ := List.mem_map.1 hy
          unfold HugeRegion.release HugeRegion.unbackHugepages at e
          dsimp only at e
          split at e
          · cases e; cases hc
          · exact HugeRegion.unbackLoop_ok (hok a) _ _ _ _ _ (Nat.le_refl _) (by intro c hc; cases hc) e c hc

theorem HugeRegion.releasePages_ok {H N : Nat} {s : HugeRegion.S} {desired frac : Nat} {ad hl : Bool} {ok : Nat → Nat → Bool}
    (hok : ∀ i j, ok i j = true) {x : HugeRegion.S × Nat × HugeRegion.Log}
    (h : HugeRegion.S.releasePages H N s desired ad hl frac ok = some x) : ∀ c ∈ x.2.2, c.2.ok = true := by
  unfold HugeRegion.S.releasePages at h
  dsimp only at h
  split at h
  · cases h
  · rename_i e
    have := HugeRegion.relLoop_ok hok _ _ _ _ (by intro c hc; cases hc) e
    split at h
    · cases h
    · cases h; exact this

end Verif
