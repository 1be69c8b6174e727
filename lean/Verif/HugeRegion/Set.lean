import Verif.HugeRegion.Stats
import Verif.Util
/-! The set of regions: its order, its totals, its operations. -/
namespace Verif.HugeRegion
open Verif.Bitmap Verif.RangeTracker
open Verif.PageTracker (Call okSum)

variable {H N : Nat}

/-! ### The order of the list -/

theorem splitAt_mem {r : Nat} : ∀ {l : List Nat}, r ∈ l → ∃ A B, splitAt r l = some (A, B) ∧ l = A ++ r :: B ∧ r ∉ A := by
  intro l
  induction l with
  | nil => intro h; simp at h
  | cons x l ih =>
    intro h
    unfold splitAt
    by_cases e : x = r
    · rw [if_pos e]; exact ⟨[], l, rfl, by rw [e]; rfl, by simp⟩
    · rw [if_neg e]
      obtain ⟨A, B, e1, e2, e3⟩ := ih (by rcases List.mem_cons.1 h with h | h; exact absurd h.symm e; exact h)
      rw [e1]
      refine ⟨x :: A, B, rfl, by rw [e2]; rfl, ?_⟩
      intro hm
      rcases List.mem_cons.1 hm with hm | hm
      · exact e hm.symm
      · exact e3 hm

theorem splitAt_app {r : Nat} {A B : List Nat} (h : r ∉ A) : splitAt r (A ++ r :: B) = some (A, B) := by
  induction A with
  | nil => simp [splitAt]
  | cons x A ih =>
    have h1 : ¬ x = r := fun e => h (by simp [e])
    have h2 : r ∉ A := fun e => h (by simp [e])
    rw [List.cons_append, splitAt, if_neg h1, ih h2]; rfl

theorem riseLoop_spec (lf : Nat → Nat) (r : Nat) : ∀ (ra passed : List Nat), (ra.reverse).Pairwise (fun a b => lf a ≤ lf b) →
    ∃ A' B', riseLoop lf r ra passed = A' ++ r :: B' ∧ A' ++ B' = ra.reverse ++ passed ∧ ∀ a ∈ A', lf a ≤ lf r := by
  intro ra
  induction ra with
  | nil => intro passed _; exact ⟨[], passed, rfl, rfl, by simp⟩
  | cons x xs ih =>
    intro passed hp
    unfold riseLoop
    rw [List.reverse_cons, List.pairwise_append] at hp
    split
    · obtain ⟨A', B', e1, e2, e3⟩ := ih (x :: passed) hp.1
      exact ⟨A', B', e1, by rw [e2]; simp, e3⟩
    · next hlt =>
      refine ⟨xs.reverse ++ [x], passed, by simp, by simp, ?_⟩
      intro a ha
      rcases List.mem_append.1 ha with ha | ha
      · have := hp.2.2 a ha x (by simp); omega
      · rw [List.mem_singleton] at ha; rw [ha]; omega

theorem rise_spec (lf : Nat → Nat) (A : List Nat) (r : Nat) (B : List Nat) (hp : A.Pairwise (fun a b => lf a ≤ lf b)) :
    ∃ A' B', rise lf A r B = A' ++ r :: B' ∧ A' ++ B' = A ++ B ∧ ∀ a ∈ A', lf a ≤ lf r := by
  unfold rise
  cases hA : A.reverse with
  | nil =>
    have : A = [] := by simpa using hA
    subst this
    exact ⟨[], B, rfl, rfl, by simp⟩
  | cons p ps =>
    simp only []
    have hrev : A = (p :: ps).reverse := by rw [← hA]; simp
    split
    · obtain ⟨A', B', e1, e2, e3⟩ := riseLoop_spec lf r (p :: ps) [] (by rw [← hrev]; exact hp)
      refine ⟨A', B' ++ B, by rw [e1]; simp, ?_, e3⟩
      rw [← List.append_assoc, e2, hrev]; simp
    · next hlt =>
      refine ⟨A, B, rfl, rfl, ?_⟩
      intro a ha
      rw [hrev, List.reverse_cons] at ha hp
      rw [List.pairwise_append] at hp
      rcases List.mem_append.1 ha with ha | ha
      · have := hp.2.2 a ha p (by simp); omega
      · rw [List.mem_singleton] at ha; rw [ha]; omega

theorem fallLoop_spec (lf : Nat → Nat) (r : Nat) : ∀ (B : List Nat), B.Pairwise (fun a b => lf a ≤ lf b) →
    ∃ C D, fallLoop lf r B = C ++ r :: D ∧ C ++ D = B ∧ (∀ a ∈ C, lf a ≤ lf r) ∧ ∀ b ∈ D, lf r ≤ lf b := by
  intro B
  induction B with
  | nil => intro _; exact ⟨[], [], rfl, rfl, by simp, by simp⟩
  | cons x xs ih =>
    intro hp
    rw [List.pairwise_cons] at hp
    unfold fallLoop
    split
    · next hlt =>
      obtain ⟨C, D, e1, e2, e3, e4⟩ := ih hp.2
      refine ⟨x :: C, D, by rw [e1]; rfl, by rw [List.cons_append, e2], ?_, e4⟩
      intro a ha
      rcases List.mem_cons.1 ha with ha | ha
      · rw [ha]; omega
      · exact e3 a ha
    · next hlt =>
      refine ⟨[], x :: xs, rfl, rfl, by simp, ?_⟩
      intro b hb
      rcases List.mem_cons.1 hb with hb | hb
      · rw [hb]; omega
      · have := hp.1 b hb; omega

theorem fall_spec (lf : Nat → Nat) (A : List Nat) (r : Nat) (B : List Nat) (hp : B.Pairwise (fun a b => lf a ≤ lf b)) :
    ∃ C D, fall lf A r B = A ++ C ++ r :: D ∧ C ++ D = B ∧ (∀ a ∈ C, lf a ≤ lf r) ∧ ∀ b ∈ D, lf r ≤ lf b := by
  unfold fall
  cases B with
  | nil => exact ⟨[], [], by simp, rfl, by simp, by simp⟩
  | cons x xs =>
    simp only []
    split
    · obtain ⟨C, D, e1, e2, e3, e4⟩ := fallLoop_spec lf r (x :: xs) hp
      exact ⟨C, D, by rw [e1]; simp, e2, e3, e4⟩
    · next hlt =>
      rw [List.pairwise_cons] at hp
      refine ⟨[], x :: xs, by simp, rfl, by simp, ?_⟩
      intro b hb
      rcases List.mem_cons.1 hb with hb | hb
      · rw [hb]; omega
      · have := hp.1 b hb; omega

/-- `Fix` restores the order of a list in which only `r` may be out of place. -/
theorem fix_spec {lf : Nat → Nat} {l : List Nat} {r : Nat} (hr : r ∈ l) (hnd : l.Nodup)
    (hp : (l.erase r).Pairwise (fun a b => lf a ≤ lf b)) :
    ∃ l', fix lf l r = some l' ∧ l'.Perm l ∧ l'.Pairwise (fun a b => lf a ≤ lf b) := by
  obtain ⟨A, B, e1, e2, e3⟩ := splitAt_mem hr
  have herase : l.erase r = A ++ B := by
    rw [e2, List.erase_append_right _ e3, List.erase_cons_head]
  rw [herase] at hp
  have hrB : r ∉ B := by
    rw [e2, List.nodup_append] at hnd
    exact (List.nodup_cons.1 hnd.2.1).1
  obtain ⟨A', B', r1, r2, r3⟩ := rise_spec lf A r B (List.pairwise_append.1 hp).1
  have hrA' : r ∉ A' := by
    intro h
    have : r ∈ A' ++ B' := by simp [h]
    rw [r2, List.mem_append] at this
    rcases this with h | h
    · exact e3 h
    · exact hrB h
  rw [← r2] at hp
  obtain ⟨C, D, f1, f2, f3, f4⟩ := fall_spec lf A' r B' (List.pairwise_append.1 hp).2.1
  refine ⟨A' ++ C ++ r :: D, ?_, ?_, ?_⟩
  · unfold fix
    rw [e1]
    show (splitAt r (rise lf A r B)).bind _ = _
    rw [r1, splitAt_app hrA']
    show some (fall lf A' r B') = _
    rw [f1]
  · rw [e2]
    have h1 : (A' ++ C ++ r :: D).Perm (r :: (A' ++ C ++ D)) := List.perm_middle
    have h2 : (A ++ r :: B).Perm (r :: (A ++ B)) := List.perm_middle
    refine h1.trans (List.Perm.trans ?_ h2.symm)
    rw [List.append_assoc, f2, r2]
  · rw [← f2] at hp
    rw [← List.append_assoc, List.pairwise_append] at hp
    rw [List.pairwise_append]
    refine ⟨hp.1, ?_, ?_⟩
    · rw [List.pairwise_cons]; exact ⟨f4, hp.2.1⟩
    · intro a ha b hb
      rcases List.mem_cons.1 hb with hb | hb
      · rw [hb]
        rcases List.mem_append.1 ha with ha | ha
        · exact r3 a ha
        · exact f3 a ha
      · exact hp.2.2 a ha b hb

theorem addToList_spec (lf : Nat → Nat) (r : Nat) : ∀ (l : List Nat), l.Pairwise (fun a b => lf a ≤ lf b) →
    (addToList lf r l).Perm (r :: l) ∧ (addToList lf r l).Pairwise (fun a b => lf a ≤ lf b) := by
  intro l
  induction l with
  | nil => intro _; exact ⟨List.Perm.refl _, List.pairwise_singleton _ _⟩
  | cons x xs ih =>
    intro hp
    unfold addToList
    have hp' := hp
    rw [List.pairwise_cons] at hp
    split
    · next hlt =>
      refine ⟨List.Perm.refl _, ?_⟩
      rw [List.pairwise_cons]
      refine ⟨?_, hp'⟩
      intro b hb
      rcases List.mem_cons.1 hb with hb | hb
      · rw [hb]; omega
      · have := hp.1 b hb; omega
    · next hlt =>
      obtain ⟨h1, h2⟩ := ih hp.2
      refine ⟨(h1.cons x).trans (List.Perm.swap _ _ _), ?_⟩
      rw [List.pairwise_cons]
      refine ⟨?_, h2⟩
      intro b hb
      rcases List.mem_cons.1 (h1.mem_iff.1 hb) with hb | hb
      · rw [hb]; omega
      · exact hp.1 b hb

/-! ### Sums -/

def sumOf (f : Nat → Nat) (l : List Nat) : Nat := (l.map f).sum

theorem sumOf_cons (f : Nat → Nat) (x : Nat) (l : List Nat) : sumOf f (x :: l) = f x + sumOf f l := by simp [sumOf]

theorem sumOf_perm {f : Nat → Nat} {a b : List Nat} (h : a.Perm b) : sumOf f a = sumOf f b := by
  induction h with
  | nil => rfl
  | cons x _ ih => rw [sumOf_cons, sumOf_cons, ih]
  | swap x y l => simp only [sumOf_cons]; omega
  | trans _ _ a b => rw [a, b]

theorem sumOf_congr {f g : Nat → Nat} {l : List Nat} (h : ∀ x ∈ l, f x = g x) : sumOf f l = sumOf g l := by
  induction l with
  | nil => rfl
  | cons x l ih => rw [sumOf_cons, sumOf_cons, h x (by simp), ih (fun y hy => h y (by simp [hy]))]

theorem sumOf_upd {f g : Nat → Nat} {l : List Nat} {id : Nat} (hn : l.Nodup) (hm : id ∈ l)
    (h : ∀ x, x ≠ id → g x = f x) : sumOf g l + f id = sumOf f l + g id := by
  have e1 := sumOf_perm (f := g) (List.perm_cons_erase hm)
  have e2 := sumOf_perm (f := f) (List.perm_cons_erase hm)
  rw [sumOf_cons] at e1 e2
  have e3 : sumOf g (l.erase id) = sumOf f (l.erase id) := sumOf_congr (fun x hx => h x (by
    intro e; subst e; exact (List.Nodup.mem_erase_iff hn).1 hx |>.1 rfl))
  omega

theorem sumOf_mem {f : Nat → Nat} {l : List Nat} {id : Nat} (hm : id ∈ l) : f id ≤ sumOf f l := by
  have e1 := sumOf_perm (f := f) (List.perm_cons_erase hm)
  rw [sumOf_cons] at e1; omega

/-! ### The invariant -/

structure KS (H N : Nat) (s : S) (g : Gh) : Prop where
  reg : ∀ id ∈ s.ids, K H N (s.reg id) (g.live id)
  nodup : s.ids.Nodup
  apart : ∀ a ∈ s.ids, ∀ b ∈ s.ids, a ≠ b → (s.reg a).loc + H ≤ (s.reg b).loc ∨ (s.reg b).loc + H ≤ (s.reg a).loc
  sorted : s.ids.Pairwise (fun a b => s.lf a ≤ s.lf b)
  fb : s.freeBacked = sumOf (fun id => (s.reg id).freeBacked) s.ids
  n : s.n = s.ids.length
  low : s.lowater ≤ s.freeBacked
  mem : ∀ id ∈ s.ids, ∀ x, x < H → ((s.reg id).backed x = true ↔ g.mem id x)

theorem KS.init (more : Bool) (reg : Nat → R) : KS H N (S.init more reg) Gh.init :=
  ⟨by simp [S.init], by simp [S.init], by simp [S.init], by simp [S.init], rfl, rfl, Nat.le_refl _, by simp [S.init]⟩

theorem KS.contribute {s : S} {g : Gh} (k : KS H N s g) {id loc : Nat} (hid : id ∉ s.ids)
    (hl : ∀ j ∈ s.ids, loc + H ≤ (s.reg j).loc ∨ (s.reg j).loc + H ≤ loc) :
    KS H N (s.contribute id (R.new H N loc)) ⟨upd g.live id [], upd g.mem id fun _ => False⟩ := by
  have hne : ∀ j ∈ s.ids, j ≠ id := fun j hj e => hid (e ▸ hj)
  obtain ⟨p1, p2⟩ := addToList_spec (fun j => ((upd s.reg id (R.new H N loc)) j).trk.longestFree) id s.ids (by
    refine List.Pairwise.imp_of_mem ?_ k.sorted
    intro a b ha hb hab
    rw [upd_ne _ _ (hne a ha), upd_ne _ _ (hne b hb)]; exact hab)
  have hmem : ∀ j, j ∈ (s.contribute id (R.new H N loc)).ids ↔ j = id ∨ j ∈ s.ids := by
    intro j
    show j ∈ addToList _ id s.ids ↔ _
    rw [← List.mem_cons]; exact p1.mem_iff
  have hreg : (s.contribute id (R.new H N loc)).reg = upd s.reg id (R.new H N loc) := rfl
  refine ⟨?_, ?_, ?_, p2, ?_, ?_, ?_, ?_⟩
  · intro j hj
    rw [hreg]
    rcases (hmem j).1 hj with e | hj
    · subst e; rw [upd_same]; simp only [upd_same]; exact K.new H N loc
    · rw [upd_ne _ _ (hne j hj)]; simp only [upd_ne _ _ (hne j hj)]; exact k.reg j hj
  · exact p1.nodup_iff.2 (List.nodup_cons.2 ⟨hid, k.nodup⟩)
  · intro a ha b hb hab
    rw [hreg]
    rcases (hmem a).1 ha with ea | ha <;> rcases (hmem b).1 hb with eb | hb
    · exact absurd (ea.trans eb.symm) hab
    · subst ea; rw [upd_same, upd_ne _ _ (hne b (by assumption))]; exact hl b (by assumption)
    · subst eb; rw [upd_same, upd_ne _ _ (hne a (by assumption))]; exact (hl a (by assumption)).symm
    · rw [upd_ne _ _ (hne a ha), upd_ne _ _ (hne b hb)]; exact k.apart a ha b hb hab
  · show s.freeBacked + (R.new H N loc).freeBacked = sumOf (fun j => (upd s.reg id (R.new H N loc) j).freeBacked)
      (addToList (fun j => ((upd s.reg id (R.new H N loc)) j).trk.longestFree) id s.ids)
    rw [sumOf_perm p1, sumOf_cons, upd_same, k.fb]
    rw [sumOf_congr (l := s.ids) (f := fun j => (upd s.reg id (R.new H N loc) j).freeBacked)
      (g := fun j => (s.reg j).freeBacked) (fun j hj => by rw [upd_ne _ _ (hne j hj)])]
    omega
  · show s.n + 1 = (addToList (fun j => ((upd s.reg id (R.new H N loc)) j).trk.longestFree) id s.ids).length
    rw [p1.length_eq, k.n]; rfl
  · show s.lowater ≤ s.freeBacked + (R.new H N loc).freeBacked
    have := k.low; omega
  · intro j hj x hx
    rw [hreg]
    rcases (hmem j).1 hj with e | hj
    · subst e; rw [upd_same]; simp only [upd_same]; simp [R.new]
    · rw [upd_ne _ _ (hne j hj)]; simp only [upd_ne _ _ (hne j hj)]; exact k.mem j hj x hx

/-- The regions, their places and the mode of the set stay as they are. -/
def Shape (s s' : S) : Prop := s'.ids.Perm s.ids ∧ (∀ j, (s'.reg j).loc = (s.reg j).loc) ∧ s'.more = s.more

theorem Shape.upd {s s' : S} {id : Nat} {r' : R} (h1 : s'.ids.Perm s.ids) (h2 : s'.reg = upd s.reg id r')
    (h3 : r'.loc = (s.reg id).loc) (h4 : s'.more = s.more) : Shape s s' := by
  refine ⟨h1, fun j => ?_, h4⟩
  rw [h2]
  by_cases ej : j = id
  · subst ej; rw [upd_same]; exact h3
  · rw [upd_ne _ _ ej]

/-- Putting the list in order after region `id` has changed. -/
theorem KS.changed {s : S} {g : Gh} (k : KS H N s g) {id : Nat} (hid : id ∈ s.ids) {r' : R} {fb lo : Nat}
    {L : List (Nat × Nat)} {M : Nat → Prop} (hk : K H N r' L) (hloc : r'.loc = (s.reg id).loc)
    (hfb : fb + (s.reg id).freeBacked = s.freeBacked + r'.freeBacked) (hlo : lo ≤ fb)
    (hm : ∀ x, x < H → (r'.backed x = true ↔ M x)) :
    ∃ s', S.fixed { s with reg := upd s.reg id r', freeBacked := fb, lowater := lo } id = some s' ∧
      s'.reg = upd s.reg id r' ∧ s'.more = s.more ∧ s'.freeBacked = fb ∧ s'.lowater = lo ∧ s'.ids.Perm s.ids ∧
      KS H N s' ⟨upd g.live id L, upd g.mem id M⟩ := by
  have hp : (s.ids.erase id).Pairwise
      (fun a b => (upd s.reg id r' a).trk.longestFree ≤ (upd s.reg id r' b).trk.longestFree) := by
    refine List.Pairwise.imp_of_mem ?_ (k.sorted.sublist (List.erase_sublist))
    intro a b ha hb hab
    have ha' := ((List.Nodup.mem_erase_iff k.nodup).1 ha).1
    have hb' := ((List.Nodup.mem_erase_iff k.nodup).1 hb).1
    rw [upd_ne _ _ ha', upd_ne _ _ hb']; exact hab
  obtain ⟨l', e, p1, p2⟩ := fix_spec hid k.nodup hp
  refine ⟨⟨l', upd s.reg id r', s.n, s.more, fb, lo⟩, ?_, rfl, rfl, rfl, rfl, p1, ?_⟩
  · unfold S.fixed
    show (fix (fun j => (upd s.reg id r' j).trk.longestFree) s.ids id).map _ = _
    rw [e]; rfl
  · refine ⟨?_, p1.nodup_iff.2 k.nodup, ?_, p2, ?_, ?_, hlo, ?_⟩
    · intro j hj
      simp only []
      by_cases ej : j = id
      · subst ej; rw [upd_same, upd_same]; exact hk
      · rw [upd_ne _ _ ej, upd_ne _ _ ej]; exact k.reg j (p1.mem_iff.1 hj)
    · intro a ha b hb hab
      have hloc' : ∀ j, (upd s.reg id r' j).loc = (s.reg j).loc := by
        intro j
        by_cases ej : j = id
        · subst ej; rw [upd_same]; exact hloc
        · rw [upd_ne _ _ ej]
      simp only [hloc']
      exact k.apart a (p1.mem_iff.1 ha) b (p1.mem_iff.1 hb) hab
    · show fb = sumOf (fun j => (upd s.reg id r' j).freeBacked) l'
      rw [sumOf_perm p1]
      have := sumOf_upd (f := fun j => (s.reg j).freeBacked) (g := fun j => (upd s.reg id r' j).freeBacked) k.nodup hid
        (by intro x hx; rw [upd_ne _ _ hx])
      simp only [upd_same] at this
      have := k.fb; omega
    · show s.n = l'.length
      rw [p1.length_eq]; exact k.n
    · intro j hj x hx
      simp only []
      by_cases ej : j = id
      · subst ej; rw [upd_same, upd_same]; exact hm x hx
      · rw [upd_ne _ _ ej, upd_ne _ _ ej]; exact k.mem j (p1.mem_iff.1 hj) x hx

theorem getLoop_spec (hN : 0 < N) {s : S} {g : Gh} (k : KS H N s g) {n : Nat} (hn : 0 < n) : ∀ (rest : List Nat),
    (∀ id ∈ rest, id ∈ s.ids) →
    (getLoop H N s n rest = some (s, none) ∧ ∀ id ∈ rest, s.lf id < n) ∨
    ∃ A id B s' i rel len, rest = A ++ id :: B ∧ (∀ j ∈ A, s.lf j < n) ∧ n ≤ s.lf id ∧
      getLoop H N s n rest = some (s', some (id, (s.reg id).loc * N + i, rel)) ∧
      BestFit (bitAt (s.reg id).trk.bits) (H * N) n i len ∧
      (rel = true ↔ ∃ x, Touch N i n x ∧ (s.reg id).backed x = false) ∧ Shape s s' ∧
      KS H N s' ⟨upd g.live id ((i, n) :: g.live id), upd g.mem id fun x => g.mem id x ∨ Touch N i n x⟩ := by
  intro rest
  induction rest with
  | nil => intro _; exact Or.inl ⟨rfl, by simp⟩
  | cons id rest ih =>
    intro hsub
    have hid := hsub id (by simp)
    unfold getLoop
    by_cases hf : (s.reg id).trk.longestFree < n
    · rw [maybeGet_fail hf]
      simp only []
      rcases ih (fun j hj => hsub j (by simp [hj])) with ⟨e, h⟩ | ⟨A, id', B, s', i, rel, len, e1, e2, e3⟩
      · refine Or.inl ⟨e, ?_⟩
        intro j hj
        rcases List.mem_cons.1 hj with hj | hj
        · rw [hj]; exact hf
        · exact h j hj
      · refine Or.inr ⟨id :: A, id', B, s', i, rel, len, by rw [e1]; rfl, ?_, e3⟩
        intro j hj
        rcases List.mem_cons.1 hj with hj | hj
        · rw [hj]; exact hf
        · exact e2 j hj
    · obtain ⟨r', i, rel, len, e, kr, bf, hloc, hb, hbk, hrel, hfb⟩ := maybeGet_spec hN (k.reg id hid) hn
        (show n ≤ (s.reg id).trk.longestFree by omega)
      rw [e]
      simp only []
      have hle := sumOf_mem (f := fun j => (s.reg j).freeBacked) hid
      rw [← k.fb] at hle
      rw [show subCount (s.reg id).freeBacked r'.freeBacked = some ((s.reg id).freeBacked - r'.freeBacked) by
        unfold subCount; rw [if_pos hfb]]
      simp only []
      rw [show subCount s.freeBacked ((s.reg id).freeBacked - r'.freeBacked) =
        some (s.freeBacked - ((s.reg id).freeBacked - r'.freeBacked)) by unfold subCount; rw [if_pos (by omega)]]
      simp only []
      obtain ⟨s', es, hs1, hs2, -, -, hs3, ks⟩ := k.changed hid (r' := r')
        (fb := s.freeBacked - ((s.reg id).freeBacked - r'.freeBacked))
        (lo := min s.lowater (s.freeBacked - ((s.reg id).freeBacked - r'.freeBacked))) (L := (i, n) :: g.live id)
        (M := fun x => g.mem id x ∨ Touch N i n x) kr hloc (by omega) (by omega)
        (by intro x hx; rw [hbk, k.mem id hid x hx])
      rw [es]
      exact Or.inr ⟨[], id, rest, s', i, rel, len, rfl, by simp, by show n ≤ (s.reg id).trk.longestFree; omega, rfl, bf,
        hrel, Shape.upd hs3 hs1 hloc hs2, ks⟩

theorem contains_iff (hN : 0 < N) (r : R) (p : Nat) :
    r.contains H N p = true ↔ r.loc * N ≤ p ∧ p < (r.loc + H) * N := by
  unfold R.contains
  rw [decide_eq_true_eq]
  have hb := block hN p
  constructor
  · rintro ⟨h1, h2⟩
    have h3 := Nat.mul_le_mul_right N h1
    have h4 := block_lt (show p / N < r.loc + H by omega) N
    omega
  · rintro ⟨h1, h2⟩
    have h0 : r.loc ≤ p / N := by
      apply Classical.byContradiction; intro hc
      have h3 := block_lt (Nat.lt_of_not_le hc) N
      exact absurd hb.2 (by omega)
    refine ⟨h0, ?_⟩
    · apply Classical.byContradiction; intro hc
      have := Nat.mul_le_mul_right N (show r.loc + H ≤ p / N by omega); omega

/-- The region of a page is found. -/
theorem find_region (hN : 0 < N) {s : S} {g : Gh} (k : KS H N s g) {id : Nat} (hid : id ∈ s.ids) {q : Nat} (hq : q < H * N) :
    s.ids.find? (fun j => (s.reg j).contains H N ((s.reg id).loc * N + q)) = some id := by
  have hc : (s.reg id).contains H N ((s.reg id).loc * N + q) = true := by
    rw [contains_iff hN, Nat.add_mul]; omega
  cases hf : s.ids.find? (fun j => (s.reg j).contains H N ((s.reg id).loc * N + q)) with
  | none =>
    have := List.find?_eq_none.1 hf id hid
    exact absurd hc this
  | some j =>
    have h1 := List.find?_some hf
    have h2 := List.mem_of_find?_eq_some hf
    by_cases e : j = id
    · rw [e]
    · exfalso
      rw [contains_iff hN, Nat.add_mul] at h1
      have hap := k.apart j h2 id hid e
      rcases hap with h | h
      · have := Nat.mul_le_mul_right N h
        rw [Nat.add_mul] at this; omega
      · have := Nat.mul_le_mul_right N h
        rw [Nat.add_mul] at this; omega

theorem maybePut_spec (hN : 0 < N) {s : S} {g : Gh} (k : KS H N s g) {id i n : Nat} (hid : id ∈ s.ids)
    (hm : (i, n) ∈ g.live id) (ok : Nat → Bool) :
    ∃ s' calls sh, S.maybePut H N s ((s.reg id).loc * N + i) n ok = some (s', some (id, calls)) ∧
      (s.more = true → calls = []) ∧ (s.more = false → Calls H sh 0 calls) ∧
      (∀ x, sh x = true ↔ Touch N i n x ∧ (s'.reg id).used x = 0) ∧ Shape s s' ∧
      KS H N s' ⟨upd g.live id ((g.live id).erase (i, n)),
        upd g.mem id fun x => g.mem id x ∧ ¬ ∃ c ∈ calls, c.ok = true ∧ c.Has x⟩ := by
  have kr := k.reg id hid
  have hin := kr.good.inside _ hm
  simp only [] at hin
  obtain ⟨r', calls, sh, e, k', hloc, hb, hsh, hc1, hc2, hbk, hfb⟩ := put_spec hN kr hm (!s.more) ok
  unfold S.maybePut
  rw [find_region hN k hid (by omega)]
  simp only []
  rw [e]
  simp only []
  rw [show subCount r'.freeBacked (s.reg id).freeBacked = some (r'.freeBacked - (s.reg id).freeBacked) by
    unfold subCount; rw [if_pos hfb]]
  simp only []
  obtain ⟨s', es, hreg, hmo, -, -, hperm, ks⟩ := k.changed hid (r' := r')
    (fb := s.freeBacked + (r'.freeBacked - (s.reg id).freeBacked)) (lo := s.lowater)
    (L := (g.live id).erase (i, n)) (M := fun x => g.mem id x ∧ ¬ ∃ c ∈ calls, c.ok = true ∧ c.Has x) k' hloc
    (by omega) (by have := k.low; omega) (by intro x hx; rw [hbk, k.mem id hid x hx])
  rw [es]
  refine ⟨s', calls, sh, rfl, ?_, ?_, ?_, Shape.upd hperm hreg hloc hmo, ks⟩
  · intro hmore; exact hc2 (by simp [hmore])
  · intro hmore; exact hc1 (by simp [hmore])
  · intro x; rw [hreg, upd_same]; exact hsh x

/-! ### `ReleasePages` -/

theorem hl_sub (hN : 0 < N) {T k : Nat} (h : k * N ≤ T) : hlFromPages N (T - k * N) = hlFromPages N T - k := by
  unfold hlFromPages
  obtain ⟨d, rfl⟩ : ∃ d, T = d + k * N := ⟨T - k * N, by omega⟩
  rw [Nat.add_sub_cancel, Nat.add_mul_div_right _ _ hN, Nat.add_mul_mod_self_right]
  generalize (if d % N ≠ 0 then 1 else 0) = z
  generalize d / N = y
  omega

theorem hl_mul (hN : 0 < N) (k : Nat) : hlFromPages N (k * N) = k := by
  unfold hlFromPages
  rw [Nat.mul_div_cancel _ hN, Nat.mul_mod_left]; simp

theorem okSum_append (a b : List Call) : okSum (a ++ b) = okSum a + okSum b := by
  induction a with
  | nil => simp [okSum]
  | cons c a ih => rw [List.cons_append, okSum_cons, okSum_cons, ih]; omega

theorem logOk_append (a b : Log) : logOk (a ++ b) = logOk a + logOk b := by
  unfold logOk; rw [List.map_append, okSum_append]

theorem okSum_le (l : List Call) : okSum l ≤ (l.map Call.n).sum := by
  induction l with
  | nil => simp [okSum]
  | cons c l ih => rw [okSum_cons, List.map_cons, List.sum_cons]; split <;> omega

theorem okSum_all {l : List Call} (h : ∀ c ∈ l, c.ok = true) : okSum l = (l.map Call.n).sum := by
  induction l with
  | nil => simp [okSum]
  | cons c l ih =>
    rw [okSum_cons, List.map_cons, List.sum_cons, if_pos (h c (by simp)), ih (fun d hd => h d (by simp [hd]))]

/-- What the loop over the regions does: `s` and `s'` differ in the regions of `rest` only. -/
theorem relLoop_spec (hN : 0 < N) (T : Nat) (adaptive : Bool) (ok : Nat → Nat → Bool) (g : Gh) : ∀ (rest : List Nat) (s : S)
    (hl : Nat) (log : Log), rest.Nodup → (∀ id ∈ rest, K H N (s.reg id) (g.live id)) → hl ≤ hlFromPages N T →
    ∃ s' new, relLoop H N T adaptive ok rest s (hl * N) log = some (s', (hl + logOk new) * N, log ++ new) ∧
      s'.ids = s.ids ∧ s'.n = s.n ∧ s'.more = s.more ∧ s'.freeBacked = s.freeBacked ∧ s'.lowater = s.lowater ∧
      (∀ id, id ∉ rest → s'.reg id = s.reg id) ∧ (∀ x ∈ new, x.1 ∈ rest) ∧
      (∀ id ∈ rest, K H N (s'.reg id) (g.live id) ∧ (s'.reg id).loc = (s.reg id).loc ∧
        (∀ p, bitAt (s'.reg id).trk.bits p = bitAt (s.reg id).trk.bits p) ∧
        (∀ x, (s'.reg id).backed x = true ↔ (s.reg id).backed x = true ∧ ¬ InLog new id x) ∧
        (∀ c, (id, c) ∈ new → 0 < c.n ∧ c.i + c.n ≤ H ∧ ∀ x, c.Has x → (s.reg id).empty x = true)) ∧
      sumOf (fun id => (s'.reg id).freeBacked) rest + logOk new = sumOf (fun id => (s.reg id).freeBacked) rest ∧
      hl + logOk new ≤ hlFromPages N T ∧
      ((∀ x ∈ new, x.2.ok = true) →
        hl + logOk new = min (hlFromPages N T) (hl + sumOf (fun id => (s.reg id).freeBacked) rest)) := by
  intro rest
  induction rest with
  | nil =>
    intro s hl log _ _ hle
    refine ⟨s, [], by simp [relLoop, logOk, okSum], rfl, rfl, rfl, rfl, rfl, fun _ _ => rfl, by simp, by simp,
      by simp [logOk, okSum], by simpa [logOk, okSum] using hle, ?_⟩
    intro _
    simp only [logOk, List.map_nil, okSum, sumOf, List.sum_nil]; omega
  | cons id rest ih =>
    intro s hl log hnd hk hle
    obtain ⟨hni, hnd'⟩ := List.nodup_cons.1 hnd
    unfold relLoop
    by_cases hT : T ≤ hl * N
    · rw [if_pos hT]
      refine ⟨s, [], by simp [logOk, okSum], rfl, rfl, rfl, rfl, rfl, fun _ _ => rfl, by simp, ?_,
        by simp [logOk, okSum], by simpa [logOk, okSum] using hle, ?_⟩
      · intro j hj
        exact ⟨hk j hj, rfl, fun _ => rfl, by intro x; simp [InLog], by simp⟩
      · intro _
        have : hlFromPages N T ≤ hl := by
          have h1 : hlFromPages N (hl * N) = hl := hl_mul hN hl
          have h2 : hlFromPages N T ≤ hlFromPages N (hl * N) := by
            unfold hlFromPages
            have e1 := Nat.div_add_mod T N
            have e2 := Nat.mod_lt T hN
            rw [Nat.mul_div_cancel _ hN, Nat.mul_mod_left]
            rw [Nat.mul_comm] at e1
            simp only [ne_eq, not_true_eq_false, if_false, Nat.add_zero]
            have hd : T / N ≤ hl := by
              have := Nat.div_le_div_right (c := N) hT
              rw [Nat.mul_div_cancel _ hN] at this; exact this
            by_cases hz : T % N = 0
            · rw [if_neg (by simp [hz])]; omega
            · rw [if_pos hz]
              rcases Nat.lt_or_ge (T / N) hl with h | h
              · omega
              · have : T / N = hl := by omega
                rw [this] at e1; omega
          omega
        simp only [logOk, List.map_nil, okSum]; omega
    · rw [if_neg hT]
      have kid := hk id (by simp)
      obtain ⟨r', calls, sel, e, k', c', b1, b2, b3, b4, b5, b6, b7, b8⟩ := release_spec hN kid (T - hl * N) adaptive (ok id)
      rw [e]
      simp only []
      rw [hl_sub hN (by omega)] at b6
      have hokle := okSum_le calls
      obtain ⟨s', new, e2, i1, i2, i3, i4, i5, i6, i7, i8, i9, i10, i11⟩ := ih { s with reg := upd s.reg id r' }
        (hl + okSum calls) (log ++ calls.map fun c => (id, c)) hnd'
        (by
          intro j hj
          have hne : j ≠ id := by intro e; subst e; exact hni hj
          show K H N (upd s.reg id r' j) _
          rw [upd_ne _ _ hne]; exact hk j (by simp [hj]))
        (by omega)
      have hlc : logOk (calls.map fun c => (id, c)) = okSum calls := by
        unfold logOk; rw [List.map_map]; simp [Function.comp_def]
      have hnew : ∀ c, (id, c) ∉ new := fun c hc => hni (i7 _ hc)
      refine ⟨s', (calls.map fun c => (id, c)) ++ new, ?_, i1, i2, i3, i4, i5, ?_, ?_, ?_, ?_, ?_, ?_⟩
      · rw [← Nat.add_mul, e2, logOk_append, hlc, List.append_assoc, Nat.add_assoc]
      · intro j hj
        have h1 : j ≠ id := by intro e; subst e; exact hj (by simp)
        have h2 : j ∉ rest := fun h => hj (by simp [h])
        rw [i6 j h2]
        exact upd_ne _ _ h1
      · intro x hx
        rcases List.mem_append.1 hx with hx | hx
        · obtain ⟨c, _, rfl⟩ := List.mem_map.1 hx; simp
        · exact List.mem_cons_of_mem _ (i7 x hx)
      · intro j hj
        by_cases ej : j = id
        · subst ej
          have hr : s'.reg j = r' := by rw [i6 j hni]; exact upd_same _ _ _
          rw [hr]
          refine ⟨k', b1, b3, ?_, ?_⟩
          · intro x
            rw [b7]
            constructor
            · rintro ⟨h1, h2⟩
              refine ⟨h1, ?_⟩
              rintro ⟨c, hc, h3⟩
              rcases List.mem_append.1 hc with hc | hc
              · obtain ⟨d, hd, ed⟩ := List.mem_map.1 hc
                cases ed; exact h2 ⟨c, hd, h3⟩
              · exact hnew c hc
            · rintro ⟨h1, h2⟩
              refine ⟨h1, ?_⟩
              rintro ⟨c, hc, h3⟩
              exact h2 ⟨c, List.mem_append_left _ (List.mem_map_of_mem hc), h3⟩
          · intro c hc
            rcases List.mem_append.1 hc with hc | hc
            · obtain ⟨d, hd, ed⟩ := List.mem_map.1 hc
              cases ed
              have := c'.inside c hd
              exact ⟨this.2.1, this.2.2.1, fun x hx => (b4 x (this.2.2.2 x hx)).2⟩
            · exact absurd hc (hnew c)
        · have hjr : j ∈ rest := by
            rcases List.mem_cons.1 hj with h | h
            · exact absurd h ej
            · exact h
          have := i8 j hjr
          simp only [upd_ne _ _ ej] at this
          obtain ⟨q1, q2, q3, q4, q5⟩ := this
          refine ⟨q1, q2, q3, ?_, ?_⟩
          · intro x
            rw [q4]
            constructor
            · rintro ⟨h1, h2⟩
              refine ⟨h1, ?_⟩
              rintro ⟨c, hc, h3⟩
              rcases List.mem_append.1 hc with hc | hc
              · obtain ⟨d, hd, ed⟩ := List.mem_map.1 hc
                cases ed; exact ej rfl
              · exact h2 ⟨c, hc, h3⟩
            · rintro ⟨h1, h2⟩
              refine ⟨h1, ?_⟩
              rintro ⟨c, hc, h3⟩
              exact h2 ⟨c, List.mem_append_right _ hc, h3⟩
          · intro c hc
            rcases List.mem_append.1 hc with hc | hc
            · obtain ⟨d, hd, ed⟩ := List.mem_map.1 hc
              cases ed; exact absurd rfl ej
            · exact q5 c hc
      · rw [sumOf_cons, sumOf_cons, logOk_append, hlc]
        have hr : s'.reg id = r' := by rw [i6 id hni]; exact upd_same _ _ _
        have hs : sumOf (fun j => (upd s.reg id r' j).freeBacked) rest = sumOf (fun j => (s.reg j).freeBacked) rest :=
          sumOf_congr (fun j hj => by
            have hne : j ≠ id := by intro e; subst e; exact hni hj
            rw [upd_ne _ _ hne])
        simp only [hs] at i9
        rw [hr]
        omega
      · rw [logOk_append, hlc]; omega
      · intro hall
        have h1 := i11 (fun x hx => hall x (List.mem_append_right _ hx))
        have h2 : okSum calls = (calls.map Call.n).sum := okSum_all (fun c hc =>
          hall (id, c) (List.mem_append_left _ (List.mem_map_of_mem hc)))
        have hs : sumOf (fun j => (upd s.reg id r' j).freeBacked) rest = sumOf (fun j => (s.reg j).freeBacked) rest :=
          sumOf_congr (fun j hj => by
            have hne : j ≠ id := by intro e; subst e; exact hni hj
            rw [upd_ne _ _ hne])
        simp only [hs] at h1
        rw [logOk_append, hlc, sumOf_cons]
        omega

/-- The number of pages `ReleasePages` aims at. -/
def target (N : Nat) (s : S) (desired : Nat) (adaptive hitLimit : Bool) (frac : Nat) : Nat :=
  if hitLimit then desired else if adaptive then s.lowater * N else frac

theorem releasePages_spec (hN : 0 < N) {s : S} {g : Gh} (k : KS H N s g) (desired : Nat) (adaptive hitLimit : Bool)
    (frac : Nat) (ok : Nat → Nat → Bool) :
    ∃ s' log, S.releasePages H N s desired adaptive hitLimit frac ok = some (s', logOk log * N, log) ∧
      KS H N s' ⟨g.live, fun id x => g.mem id x ∧ ¬ InLog log id x⟩ ∧ Shape s s' ∧
      (∀ x ∈ log, x.1 ∈ s.ids ∧ 0 < x.2.n ∧ x.2.i + x.2.n ≤ H ∧ ∀ y, x.2.Has y → (s.reg x.1).empty y = true) ∧
      logOk log ≤ hlFromPages N (target N s desired adaptive hitLimit frac) ∧
      ((∀ x ∈ log, x.2.ok = true) →
        logOk log = min (hlFromPages N (target N s desired adaptive hitLimit frac)) s.freeBacked) ∧
      s'.freeBacked + logOk log = s.freeBacked ∧ s'.lowater = s'.freeBacked := by
  unfold S.releasePages
  simp only []
  rw [show (if hitLimit = true then desired else if adaptive = true then s.lowater * N else frac) =
    target N s desired adaptive hitLimit frac from rfl]
  generalize target N s desired adaptive hitLimit frac = T
  have horder : (if adaptive = true then s.ids.reverse else s.ids).Perm s.ids := by
    cases adaptive with
    | true => exact List.reverse_perm _
    | false => exact List.Perm.refl _
  revert horder
  generalize (if adaptive = true then s.ids.reverse else s.ids) = order
  intro horder
  have hmem : ∀ id, id ∈ order ↔ id ∈ s.ids := fun id => horder.mem_iff
  obtain ⟨s1, new, e, i1, i2, i3, i4, i5, i6, i7, i8, i9, i10, i11⟩ := relLoop_spec hN T adaptive ok g order s 0 []
    (horder.nodup_iff.2 k.nodup) (fun id hid => k.reg id ((hmem id).1 hid)) (by omega)
  rw [Nat.zero_mul, Nat.zero_add, List.nil_append] at e
  rw [e]
  simp only [Nat.zero_add] at i10 i11 ⊢
  rw [sumOf_perm horder, sumOf_perm horder, ← k.fb] at i9
  rw [sumOf_perm horder, ← k.fb] at i11
  rw [hl_mul hN, i4, show subCount s.freeBacked (logOk new) = some (s.freeBacked - logOk new) by
    unfold subCount; rw [if_pos (by omega)]]
  simp only []
  refine ⟨_, new, rfl, ?_, ⟨by simp only [i1]; exact List.Perm.refl _, ?_, i3⟩, ?_, i10, i11, by simp only []; omega, rfl⟩
  · have hlf : ∀ id ∈ s.ids, (s1.reg id).trk.longestFree = (s.reg id).trk.longestFree := by
      intro id hid
      obtain ⟨q1, q2, q3, -⟩ := i8 id ((hmem id).2 hid)
      have h1 := q1.good.exact.longest
      have h2 := (k.reg id hid).good.exact.longest
      exact h1.unique (h2.congr (fun j _ => q3 j))
    refine ⟨?_, ?_, ?_, ?_, ?_, ?_, Nat.le_refl _, ?_⟩
    · intro id hid
      exact (i8 id ((hmem id).2 (by rw [← i1]; exact hid))).1
    · show s1.ids.Nodup
      rw [i1]; exact k.nodup
    · intro a ha b hb hab
      have ha' : a ∈ s.ids := by rw [← i1]; exact ha
      have hb' : b ∈ s.ids := by rw [← i1]; exact hb
      show (s1.reg a).loc + H ≤ (s1.reg b).loc ∨ _
      rw [(i8 a ((hmem a).2 ha')).2.1, (i8 b ((hmem b).2 hb')).2.1]
      exact k.apart a ha' b hb' hab
    · show s1.ids.Pairwise (fun a b => (s1.reg a).trk.longestFree ≤ (s1.reg b).trk.longestFree)
      rw [i1]
      refine List.Pairwise.imp_of_mem ?_ k.sorted
      intro a b ha hb hab
      rw [hlf a ha, hlf b hb]; exact hab
    · show s.freeBacked - logOk new = sumOf (fun id => (s1.reg id).freeBacked) s1.ids
      rw [i1]; omega
    · show s1.n = s1.ids.length
      rw [i1, i2]; exact k.n
    · intro id hid x hx
      have hid' : id ∈ s.ids := by rw [← i1]; exact hid
      show (s1.reg id).backed x = true ↔ _
      rw [(i8 id ((hmem id).2 hid')).2.2.2.1 x, k.mem id hid' x hx]
  · intro j
    show (s1.reg j).loc = _
    by_cases hj : j ∈ order
    · exact (i8 j hj).2.1
    · rw [i6 j hj]
  · intro x hx
    have hid := i7 x hx
    obtain ⟨-, -, -, -, q⟩ := i8 x.1 hid
    exact ⟨(hmem x.1).1 hid, q x.2 hx⟩

/-- Every reachable state satisfies the invariant. -/
theorem Reach.ks (hN : 0 < N) {s : S} {g : Gh} (h : Reach H N s g) : KS H N s g := by
  induction h with
  | init more reg => exact KS.init more reg
  | contribute id loc _ h1 h2 ih => exact ih.contribute h1 h2
  | full n _ e ih =>
    rename_i s g s' _
    by_cases hn : 0 < n
    · rcases getLoop_spec hN ih hn s.ids (fun _ h => h) with ⟨e', -⟩ | ⟨A, id, B, s2, i, rel, len, -, -, -, e', -⟩
      · have e2 := e
        unfold S.maybeGet at e2
        rw [e'] at e2; cases e2; exact ih
      · unfold S.maybeGet at e
        rw [e'] at e; cases e
    · have hz : n = 0 := by omega
      subst hz
      unfold S.maybeGet at e
      cases hl : s.ids with
      | nil => rw [hl] at e; unfold getLoop at e; cases e; exact ih
      | cons a l =>
        rw [hl] at e
        unfold getLoop maybeGet at e
        rw [if_neg (by omega), if_neg (by omega)] at e
        cases e
  | get n id i rel _ e ih =>
    rename_i s g s' _
    by_cases hn : 0 < n
    · rcases getLoop_spec hN ih hn s.ids (fun _ h => h) with ⟨e', -⟩ | ⟨A, id', B, s2, i', rel', len, e1, e2, e3, e', e4, e5, -, e6⟩
      · unfold S.maybeGet at e
        rw [e'] at e; cases e
      · unfold S.maybeGet at e
        rw [e'] at e
        simp only [Option.some.injEq, Prod.mk.injEq] at e
        obtain ⟨x1, x2, x3, x4⟩ := e
        subst x1; subst x2; subst x4
        have : i' = i := by omega
        subst this
        exact e6
    · have hz : n = 0 := by omega
      subst hz
      unfold S.maybeGet at e
      cases hl : s.ids with
      | nil => rw [hl] at e; unfold getLoop at e; cases e
      | cons a l =>
        rw [hl] at e
        unfold getLoop maybeGet at e
        rw [if_neg (by omega), if_neg (by omega)] at e
        cases e
  | put id i n ok calls _ h1 h2 e ih =>
    obtain ⟨s2, calls2, sh, e2, -, -, -, -, k2⟩ := maybePut_spec hN ih h1 h2 ok
    rw [e2] at e
    simp only [Option.some.injEq, Prod.mk.injEq, true_and] at e
    obtain ⟨x1, x2⟩ := e
    subst x1; subst x2
    exact k2
  | miss p n ok _ e ih =>
    rename_i s g s' _
    unfold S.maybePut at e
    split at e
    · cases e; exact ih
    · split at e
      · cases e
      · split at e
        · cases e
        · rw [Option.map_eq_some_iff] at e
          obtain ⟨a, _, h⟩ := e
          cases h
  | release desired adaptive hitLimit frac ok released log _ e ih =>
    obtain ⟨s2, log2, e2, k2, -⟩ := releasePages_spec hN ih desired adaptive hitLimit frac ok
    rw [e2] at e
    simp only [Option.some.injEq, Prod.mk.injEq] at e
    obtain ⟨x1, x2, x3⟩ := e
    subst x1; subst x3
    exact k2

end Verif.HugeRegion
