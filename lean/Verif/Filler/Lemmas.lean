import Verif.Filler.Spec
import Verif.PageTracker.Props
import Verif.HintedLists.Props
/-! The tracker lists of the filler. -/
namespace Verif.Filler
open Verif.Bitmap Verif.RangeTracker Verif.PageTracker Verif.HintedLists

variable {N : Nat} {mode : Bool}

@[simp] theorem upd_same {α β : Type} [DecidableEq α] (f : α → β) (a : α) (b : β) : upd f a b a = b := by simp [upd]
theorem upd_ne {α β : Type} [DecidableEq α] (f : α → β) {a x : α} (b : β) (h : x ≠ a) : upd f a b x = f x := by
  simp [upd, h]
theorem upd_self {α β : Type} [DecidableEq α] (f : α → β) (a : α) : upd f a (f a) = f := by
  funext x; unfold upd; split
  · next h => rw [h]
  · rfl

theorem setTr_same (s : F) (id : Nat) (t : PT) : (s.setTr id t).tr id = t := by simp [F.setTr]
theorem setTr_ne (s : F) {id x : Nat} (t : PT) (h : x ≠ id) : (s.setTr id t).tr x = s.tr x := by
  simp [F.setTr, upd, h]

/-! ### Sums over trackers -/

def sumOn (f : Nat → Nat) (L : List Nat) : Nat := (L.map f).sum

theorem sumOn_nil (f : Nat → Nat) : sumOn f [] = 0 := rfl
theorem sumOn_cons (f : Nat → Nat) (x : Nat) (L : List Nat) : sumOn f (x :: L) = f x + sumOn f L := by simp [sumOn]
theorem sumOn_append (f : Nat → Nat) (A B : List Nat) : sumOn f (A ++ B) = sumOn f A + sumOn f B := by
  induction A with
  | nil => simp [sumOn]
  | cons x A ih => rw [List.cons_append, sumOn_cons, sumOn_cons, ih]; omega

theorem sumOn_perm {f : Nat → Nat} {A B : List Nat} (h : A.Perm B) : sumOn f A = sumOn f B := by
  induction h with
  | nil => rfl
  | cons x _ ih => rw [sumOn_cons, sumOn_cons, ih]
  | swap x y l => simp only [sumOn_cons]; omega
  | trans _ _ a b => rw [a, b]

theorem sumOn_congr {f g : Nat → Nat} {L : List Nat} (h : ∀ x ∈ L, f x = g x) : sumOn f L = sumOn g L := by
  induction L with
  | nil => rfl
  | cons x L ih =>
    rw [sumOn_cons, sumOn_cons, h x (by simp), ih (fun y hy => h y (by simp [hy]))]

theorem sumOn_erase {f : Nat → Nat} {L : List Nat} {x : Nat} (h : x ∈ L) : f x + sumOn f (L.erase x) = sumOn f L := by
  rw [← sumOn_cons]
  exact (sumOn_perm (List.perm_cons_erase h)).symm

theorem sumOn_le {f g : Nat → Nat} {L : List Nat} (h : ∀ x ∈ L, f x ≤ g x) : sumOn f L ≤ sumOn g L := by
  induction L with
  | nil => simp [sumOn]
  | cons x L ih =>
    have h1 := h x (by simp)
    have h2 := ih (fun y hy => h y (by simp [hy]))
    rw [sumOn_cons, sumOn_cons]; omega

theorem sumOn_mem_le {f : Nat → Nat} {L : List Nat} {x : Nat} (h : x ∈ L) : f x ≤ sumOn f L := by
  have := sumOn_erase (f := f) h; omega

theorem sumOn_add (f g : Nat → Nat) (L : List Nat) : sumOn (fun x => f x + g x) L = sumOn f L + sumOn g L := by
  induction L with
  | nil => rfl
  | cons x L ih => simp only [sumOn_cons]; rw [ih]; omega

theorem sumOn_const (c : Nat) (L : List Nat) : sumOn (fun _ => c) L = L.length * c := by
  induction L with
  | nil => simp [sumOn]
  | cons x L ih => rw [sumOn_cons, ih, List.length_cons, Nat.succ_mul]; omega

/-- Changing the summand at one element. -/
theorem sumOn_upd {f g : Nat → Nat} {L : List Nat} {x : Nat} (hn : L.Nodup) (hx : x ∈ L)
    (h : ∀ y ∈ L, y ≠ x → f y = g y) : sumOn g L + f x = sumOn f L + g x := by
  have h1 := sumOn_erase (f := f) hx
  have h2 := sumOn_erase (f := g) hx
  have h3 : sumOn f (L.erase x) = sumOn g (L.erase x) :=
    sumOn_congr (fun y hy => h y (List.mem_of_mem_erase hy) (by rintro rfl; exact hn.not_mem_erase hy))
  omega

/-! ### Where a tracker goes -/

def chunkIdx (na : Nat) : Nat := max (clz64 (2 * na - 1)) 56 - 56

def kindOf (N : Nat) (mode : Bool) (t : PT) : LK :=
  if t.relCount = 0 ∧ (t.unbroken = true ∨ mode = false) then .regular t.dense
  else if freePages N t ≤ t.relCount then .released t.dense
  else .partialRel t.dense

def idxOf (N : Nat) (t : PT) : Nat :=
  if t.dense then (N - t.free.nallocs) * 8 else t.free.longestFree * 8 + chunkIdx t.free.nallocs

def place (N : Nat) (mode : Bool) (t : PT) : LK × Nat :=
  if t.donated then (.donated, t.free.longestFree) else (kindOf N mode t, idxOf N t)

/-- The tracker of a hugepage that is neither empty nor overfull. -/
structure V (N : Nat) (t : PT) : Prop where
  longest : t.free.longestFree < N
  used : t.free.nused ≠ 0
  pos : 0 < t.free.nallocs
  le : t.free.nallocs ≤ N

theorem chunkIdx_lt (na : Nat) : chunkIdx na < 8 := by unfold chunkIdx clz64; omega

theorem idxOf_lt {t : PT} (h : V N t) : idxOf N t < N * 8 := by
  have := h.longest; have := h.pos; have := h.le; have := chunkIdx_lt t.free.nallocs
  unfold idxOf; split <;> omega

theorem listOf_eq {t : PT} (h : V N t) : listOf N t = some (idxOf N t) := by
  have hc := chunkIdx_lt t.free.nallocs
  have e1 : clz64 1 - (kChunks - 1) = 56 := by decide
  unfold listOf indexFor
  rw [if_neg h.used]
  cases hd : t.dense with
  | true => simp [listFor, kChunks, h.le, idxOf, hd]
  | false =>
    simp only [Bool.false_eq_true, if_false, e1]
    have : max (clz64 (2 * t.free.nallocs - 1)) 56 - 56 = chunkIdx t.free.nallocs := rfl
    rw [this]
    simp [listFor, kChunks, h.longest, idxOf, hd, hc]

theorem kindOf_ne_donated (t : PT) : kindOf N mode t ≠ .donated := by
  unfold kindOf; split
  · simp
  · split <;> simp

theorem kindOf_lists (t : PT) : nLists N (kindOf N mode t) = N * 8 := by
  unfold kindOf; split
  · rfl
  · split <;> rfl

theorem place_lt {t : PT} (h : V N t) : (place N mode t).2 < nLists N (place N mode t).1 := by
  unfold place
  split
  · exact h.longest
  · show idxOf N t < nLists N (kindOf N mode t)
    rw [kindOf_lists]; exact idxOf_lt h

/-- Used pages counted for array `k`. -/
def usedAt (N : Nat) (mode : Bool) (tr : Nat → PT) (k : LK) (id : Nat) : Nat :=
  if (place N mode (tr id)).1 = k then (tr id).free.nused else 0

/-- The lists hold exactly the trackers `listed`, each where it belongs. -/
structure LI (N : Nat) (mode : Bool) (tr : Nat → PT) (hl : LK → HL) (nR nP : Bool → Nat) (listed : List Nat) : Prop where
  nodup : listed.Nodup
  inv : ∀ k, Inv (nLists N k) (hl k)
  mem : ∀ k i id, id ∈ (hl k).lists i ↔ id ∈ listed ∧ place N mode (tr id) = (k, i)
  rel : ∀ d, nR d = sumOn (usedAt N mode tr (.released d)) listed
  part : ∀ d, nP d = sumOn (usedAt N mode tr (.partialRel d)) listed

theorem LI.congr {tr tr' : Nat → PT} {hl : LK → HL} {nR nP : Bool → Nat} {L : List Nat}
    (h : LI N mode tr hl nR nP L) (he : ∀ id ∈ L, tr' id = tr id) : LI N mode tr' hl nR nP L := by
  refine ⟨h.nodup, h.inv, ?_, ?_, ?_⟩
  · intro k i id
    rw [h.mem k i id]
    constructor
    · rintro ⟨a, b⟩; exact ⟨a, by rw [he id a]; exact b⟩
    · rintro ⟨a, b⟩; exact ⟨a, by rw [he id a] at b; exact b⟩
  · intro d; rw [h.rel d]; exact sumOn_congr (fun x hx => by unfold usedAt; rw [he x hx])
  · intro d; rw [h.part d]; exact sumOn_congr (fun x hx => by unfold usedAt; rw [he x hx])

/-- The fields of a tracker that decide where it goes. -/
theorem place_congr {t t' : PT} (h1 : t'.donated = t.donated) (h2 : t'.free = t.free) (h3 : t'.dense = t.dense)
    (h4 : t'.relCount = t.relCount) (h5 : t'.unbroken = t.unbroken) : place N mode t' = place N mode t := by
  unfold place kindOf idxOf freePages; rw [h1, h2, h3, h4, h5]

theorem LI.congr' {tr tr' : Nat → PT} {hl : LK → HL} {nR nP : Bool → Nat} {L : List Nat}
    (h : LI N mode tr hl nR nP L)
    (he : ∀ id ∈ L, place N mode (tr' id) = place N mode (tr id) ∧ (tr' id).free.nused = (tr id).free.nused) :
    LI N mode tr' hl nR nP L := by
  refine ⟨h.nodup, h.inv, ?_, ?_, ?_⟩
  · intro k i id
    rw [h.mem k i id]
    constructor
    · rintro ⟨a, b⟩; exact ⟨a, by rw [(he id a).1]; exact b⟩
    · rintro ⟨a, b⟩; exact ⟨a, by rw [(he id a).1] at b; exact b⟩
  · intro d; rw [h.rel d]; exact sumOn_congr (fun x hx => by unfold usedAt; rw [(he x hx).1, (he x hx).2])
  · intro d; rw [h.part d]; exact sumOn_congr (fun x hx => by unfold usedAt; rw [(he x hx).1, (he x hx).2])

theorem LI.perm {tr : Nat → PT} {hl : LK → HL} {nR nP : Bool → Nat} {L L' : List Nat}
    (h : LI N mode tr hl nR nP L) (hp : L.Perm L') : LI N mode tr hl nR nP L' := by
  refine ⟨hp.nodup_iff.1 h.nodup, h.inv, ?_, ?_, ?_⟩
  · intro k i id; rw [h.mem k i id, hp.mem_iff]
  · intro d; rw [h.rel d, sumOn_perm hp]
  · intro d; rw [h.part d, sumOn_perm hp]

/-- Taking a tracker off its list. -/
theorem LI.remove {tr : Nat → PT} {hl : LK → HL} {nR nP nR' nP' : Bool → Nat} {L : List Nat}
    (h : LI N mode tr hl nR nP L) {id : Nat} (hm : id ∈ L) {k : LK} (hk : (place N mode (tr id)).1 = k) {h' : HL}
    (hi : Inv (nLists N k) h') (hl' : ∀ i x, x ∈ h'.lists i ↔ x ∈ (hl k).lists i ∧ x ≠ id)
    (hr : ∀ d, nR' d + (if k = .released d then (tr id).free.nused else 0) = nR d)
    (hp : ∀ d, nP' d + (if k = .partialRel d then (tr id).free.nused else 0) = nP d) :
    LI N mode tr (upd hl k h') nR' nP' (L.erase id) := by
  refine ⟨h.nodup.erase _, ?_, ?_, ?_, ?_⟩
  · intro k'
    by_cases hkk : k' = k
    · subst hkk; rw [upd_same]; exact hi
    · rw [upd_ne _ _ hkk]; exact h.inv k'
  · intro k' i x
    have hme : x ∈ L.erase id ↔ x ∈ L ∧ x ≠ id := by rw [h.nodup.mem_erase_iff]; exact And.comm
    rw [hme]
    by_cases hkk : k' = k
    · subst hkk; rw [upd_same, hl', h.mem]
      constructor
      · rintro ⟨⟨a, b⟩, c⟩; exact ⟨⟨a, c⟩, b⟩
      · rintro ⟨⟨a, c⟩, b⟩; exact ⟨⟨a, b⟩, c⟩
    · rw [upd_ne _ _ hkk, h.mem]
      constructor
      · rintro ⟨a, b⟩
        refine ⟨⟨a, ?_⟩, b⟩
        rintro rfl
        rw [b] at hk; exact hkk hk
      · rintro ⟨⟨a, _⟩, b⟩; exact ⟨a, b⟩
  · intro d
    have h1 := hr d
    have h2 := sumOn_erase (f := usedAt N mode tr (.released d)) hm
    have h3 := h.rel d
    unfold usedAt at h2 h3
    rw [hk] at h2
    unfold usedAt
    omega
  · intro d
    have h1 := hp d
    have h2 := sumOn_erase (f := usedAt N mode tr (.partialRel d)) hm
    have h3 := h.part d
    unfold usedAt at h2 h3
    rw [hk] at h2
    unfold usedAt
    omega

/-- Putting a tracker on its list. -/
theorem LI.add {tr : Nat → PT} {hl : LK → HL} {nR nP nR' nP' : Bool → Nat} {L : List Nat}
    (h : LI N mode tr hl nR nP L) {id : Nat} (hm : id ∉ L) {k : LK} {i : Nat} (hk : place N mode (tr id) = (k, i)) {h' : HL}
    (hi : Inv (nLists N k) h') (hl' : h'.lists = setList (hl k).lists i (id :: (hl k).lists i))
    (hr : ∀ d, nR' d = nR d + (if k = .released d then (tr id).free.nused else 0))
    (hp : ∀ d, nP' d = nP d + (if k = .partialRel d then (tr id).free.nused else 0)) :
    LI N mode tr (upd hl k h') nR' nP' (id :: L) := by
  refine ⟨List.nodup_cons.2 ⟨hm, h.nodup⟩, ?_, ?_, ?_, ?_⟩
  · intro k'
    by_cases hkk : k' = k
    · subst hkk; rw [upd_same]; exact hi
    · rw [upd_ne _ _ hkk]; exact h.inv k'
  · intro k' j x
    rw [List.mem_cons]
    by_cases hkk : k' = k
    · subst hkk
      rw [upd_same, hl']
      unfold setList
      by_cases hj : j = i
      · subst hj
        rw [if_pos rfl, List.mem_cons, h.mem]
        constructor
        · rintro (rfl | ⟨a, b⟩)
          · exact ⟨Or.inl rfl, hk⟩
          · exact ⟨Or.inr a, b⟩
        · rintro ⟨rfl | a, b⟩
          · exact Or.inl rfl
          · exact Or.inr ⟨a, b⟩
      · rw [if_neg hj, h.mem]
        constructor
        · rintro ⟨a, b⟩; exact ⟨Or.inr a, b⟩
        · rintro ⟨rfl | a, b⟩
          · rw [hk] at b; simp at b; exact absurd b.symm hj
          · exact ⟨a, b⟩
    · rw [upd_ne _ _ hkk, h.mem]
      constructor
      · rintro ⟨a, b⟩; exact ⟨Or.inr a, b⟩
      · rintro ⟨rfl | a, b⟩
        · rw [hk] at b; simp at b; exact absurd b.1.symm hkk
        · exact ⟨a, b⟩
  · intro d
    rw [sumOn_cons, hr d, h.rel d]
    have : usedAt N mode tr (.released d) id = if k = .released d then (tr id).free.nused else 0 := by unfold usedAt; rw [hk]
    rw [this]; omega
  · intro d
    rw [sumOn_cons, hp d, h.part d]
    have : usedAt N mode tr (.partialRel d) id = if k = .partialRel d then (tr id).free.nused else 0 := by unfold usedAt; rw [hk]
    rw [this]; omega

/-- `HintedLists.remove`, on the list a tracker is on. -/
theorem hremove {h : HL} {M : Nat} (hi : Inv M h) {id i : Nat} (hlt : i < M) (hm : id ∈ h.lists i) :
    ∃ h', HintedLists.remove M h id i = some h' ∧ Inv M h' ∧ ∀ j x, x ∈ h'.lists j ↔ x ∈ h.lists j ∧ x ≠ id := by
  obtain ⟨h', e, h1, _, h3⟩ := remove_spec hi hlt hm
  refine ⟨h', ?_, h3, ?_⟩
  · unfold HintedLists.remove; rw [if_pos hlt]; exact e
  · intro j x
    rw [h1]; unfold setList
    split
    · next hj =>
      subst hj
      rw [(hi.nodup j).mem_erase_iff]; exact And.comm
    · next hj =>
      constructor
      · intro a
        refine ⟨a, ?_⟩
        rintro rfl
        exact hi.disj i j (Ne.symm hj) x hm a
      · rintro ⟨a, _⟩; exact a

theorem subCount_le {x y : Nat} (h : y ≤ x) : subCount x y = some (x - y) := by simp [subCount, h]

theorem lk_ne {d d' : Bool} (h : d' ≠ d) : (LK.released d = LK.released d') = False ∧
    (LK.partialRel d = LK.partialRel d') = False := by
  constructor <;> simp <;> exact fun e => h e.symm

/-- `RemoveFromFillerList` takes a listed tracker off its list. -/
theorem removeFrom_spec {s : F} {L : List Nat} (h : LI N mode s.tr s.hl s.nUsedRel s.nUsedPart L) {id : Nat}
    (hm : id ∈ L) (hv : V N (s.tr id)) :
    ∃ hl nr np, removeFrom N mode s id = some { s with hl := hl, nUsedRel := nr, nUsedPart := np } ∧
      LI N mode s.tr hl nr np (L.erase id) := by
  unfold removeFrom
  simp only []
  rw [if_pos hv.longest]
  cases hdon : (s.tr id).donated with
  | true =>
    simp only [if_true]
    have hpl : place N mode (s.tr id) = (.donated, (s.tr id).free.longestFree) := by unfold place; rw [hdon]; rfl
    obtain ⟨h', e, hi, hmm⟩ := hremove (h.inv .donated) (id := id) (i := (s.tr id).free.longestFree)
      hv.longest ((h.mem _ _ _).2 ⟨hm, hpl⟩)
    rw [e]
    exact ⟨_, _, _, rfl, h.remove hm (by rw [hpl]) hi hmm (fun d => by simp) (fun d => by simp)⟩
  | false =>
    simp only [Bool.false_eq_true, if_false]
    rw [listOf_eq hv]
    simp only []
    have hpl : place N mode (s.tr id) = (kindOf N mode (s.tr id), idxOf N (s.tr id)) := by
      unfold place; rw [hdon]; rfl
    have hin := (h.mem _ _ _).2 ⟨hm, hpl⟩
    have hlt : idxOf N (s.tr id) < nLists N (kindOf N mode (s.tr id)) := by rw [kindOf_lists]; exact idxOf_lt hv
    obtain ⟨h', e, hi, hmm⟩ := hremove (h.inv _) hlt hin
    by_cases hw : (s.tr id).relCount = 0 ∧ ((s.tr id).unbroken = true ∨ mode = false)
    · have hk : kindOf N mode (s.tr id) = .regular (s.tr id).dense := by unfold kindOf; rw [if_pos hw]
      rw [if_pos hw]
      rw [hk] at e hi hmm
      rw [e]
      exact ⟨_, _, _, rfl, h.remove hm (by rw [hpl, hk]) hi hmm (fun d => by simp) (fun d => by simp)⟩
    · rw [if_neg hw]
      by_cases hf : freePages N (s.tr id) ≤ (s.tr id).relCount
      · have hk : kindOf N mode (s.tr id) = .released (s.tr id).dense := by
          unfold kindOf; rw [if_neg hw, if_pos hf]
        rw [if_pos hf]
        rw [hk] at e hi hmm
        have hle : (s.tr id).free.nused ≤ s.nUsedRel (s.tr id).dense := by
          rw [h.rel]
          have := sumOn_mem_le (f := usedAt N mode s.tr (.released (s.tr id).dense)) hm
          have e2 : usedAt N mode s.tr (.released (s.tr id).dense) id = (s.tr id).free.nused := by
            unfold usedAt; rw [hpl, hk]; simp
          omega
        rw [e, subCount_le hle]
        refine ⟨_, _, _, rfl, h.remove hm (by rw [hpl, hk]) hi hmm ?_ (fun d => by simp)⟩
        intro d
        by_cases hd : d = (s.tr id).dense
        · subst hd; simp; omega
        · rw [upd_ne _ _ hd, if_neg (by simp; exact fun e => hd e.symm)]; omega
      · have hk : kindOf N mode (s.tr id) = .partialRel (s.tr id).dense := by
          unfold kindOf; rw [if_neg hw, if_neg hf]
        rw [if_neg hf]
        rw [hk] at e hi hmm
        have hle : (s.tr id).free.nused ≤ s.nUsedPart (s.tr id).dense := by
          rw [h.part]
          have := sumOn_mem_le (f := usedAt N mode s.tr (.partialRel (s.tr id).dense)) hm
          have e2 : usedAt N mode s.tr (.partialRel (s.tr id).dense) id = (s.tr id).free.nused := by
            unfold usedAt; rw [hpl, hk]; simp
          omega
        rw [e, subCount_le hle]
        refine ⟨_, _, _, rfl, h.remove hm (by rw [hpl, hk]) hi hmm (fun d => by simp) ?_⟩
        intro d
        by_cases hd : d = (s.tr id).dense
        · subst hd; simp; omega
        · rw [upd_ne _ _ hd, if_neg (by simp; exact fun e => hd e.symm)]; omega

/-- `AddToFillerList` on a hugepage that is not empty. -/
theorem addTo_spec {s : F} {L : List Nat} (h : LI N mode s.tr s.hl s.nUsedRel s.nUsedPart L) {id : Nat}
    (hm : id ∉ L) (hv : V N (s.tr id)) :
    ∃ hl nr np, addTo N mode s id =
      some { s.setTr id { s.tr id with donated := false } with hl := hl, nUsedRel := nr, nUsedPart := np } ∧
      LI N mode (s.setTr id { s.tr id with donated := false }).tr hl nr np (id :: L) := by
  have hv' : V N { s.tr id with donated := false } := ⟨hv.longest, hv.used, hv.pos, hv.le⟩
  have h' : LI N mode (s.setTr id { s.tr id with donated := false }).tr s.hl s.nUsedRel s.nUsedPart L :=
    h.congr (fun x hx => setTr_ne _ _ (by rintro rfl; exact hm hx))
  have htr : (s.setTr id { s.tr id with donated := false }).tr id = { s.tr id with donated := false } := by
    unfold F.setTr; simp
  unfold addTo
  have := hv.longest
  rw [if_neg (by omega), if_neg (by omega)]
  simp only []
  rw [listOf_eq hv']
  simp only []
  generalize ht : ({ s.tr id with donated := false } : PT) = t at *
  have hden : (s.tr id).dense = t.dense := by rw [← ht]
  have hrc : (s.tr id).relCount = t.relCount := by rw [← ht]
  have hub : (s.tr id).unbroken = t.unbroken := by rw [← ht]
  have hfr : (s.tr id).free = t.free := by rw [← ht]
  rw [hden, hrc, hub, hfr]
  have hpl : place N mode ((s.setTr id t).tr id) = (kindOf N mode t, idxOf N t) := by
    rw [htr]; unfold place; rw [← ht]; rfl
  have hlt : idxOf N t < nLists N (kindOf N mode t) := by rw [kindOf_lists]; exact idxOf_lt hv'
  have hnot : ∀ k j, id ∉ (s.hl k).lists j := by
    intro k j hc
    exact hm ((h.mem k j id).1 hc).1
  by_cases hw : t.relCount = 0 ∧ (t.unbroken = true ∨ mode = false)
  · have hk : kindOf N mode t = .regular t.dense := by unfold kindOf; rw [if_pos hw]
    rw [if_pos hw]
    rw [hk] at hlt hpl
    obtain ⟨h1, e, e1, _, hi⟩ := add_spec (h.inv _) hlt (hnot (.regular t.dense))
    rw [e]
    exact ⟨_, _, _, rfl, h'.add hm hpl hi e1 (fun d => by simp [F.setTr]) (fun d => by simp [F.setTr])⟩
  · rw [if_neg hw]
    by_cases hf : freePages N t ≤ t.relCount
    · have hk : kindOf N mode t = .released t.dense := by unfold kindOf; rw [if_neg hw, if_pos hf]
      have hf' : freePages N t ≤ t.relCount := hf
      rw [if_pos hf']
      rw [hk] at hlt hpl
      obtain ⟨h1, e, e1, _, hi⟩ := add_spec (h.inv _) hlt (hnot (.released t.dense))
      rw [e]
      refine ⟨_, _, _, rfl, h'.add hm hpl hi e1 ?_ (fun d => by simp [F.setTr])⟩
      intro d
      rw [htr]
      by_cases hd : d = t.dense
      · subst hd; simp
      · rw [upd_ne _ _ hd, if_neg (by simp; exact fun e => hd e.symm)]; simp
    · have hk : kindOf N mode t = .partialRel t.dense := by unfold kindOf; rw [if_neg hw, if_neg hf]
      rw [if_neg hf]
      rw [hk] at hlt hpl
      obtain ⟨h1, e, e1, _, hi⟩ := add_spec (h.inv _) hlt (hnot (.partialRel t.dense))
      rw [e]
      refine ⟨_, _, _, rfl, h'.add hm hpl hi e1 (fun d => by simp [F.setTr]) ?_⟩
      intro d
      rw [htr]
      by_cases hd : d = t.dense
      · subst hd; simp
      · rw [upd_ne _ _ hd, if_neg (by simp; exact fun e => hd e.symm)]; simp

/-- `DonateToFillerList`. -/
theorem donateTo_spec {s : F} {L : List Nat} (h : LI N mode s.tr s.hl s.nUsedRel s.nUsedPart L) {id : Nat}
    (hm : id ∉ L) (hv : V N (s.tr id)) (hr : (s.tr id).relCount = 0) :
    ∃ hl, donateTo N s id = some { s.setTr id { s.tr id with donated := true } with hl := hl } ∧
      LI N mode (s.setTr id { s.tr id with donated := true }).tr hl s.nUsedRel s.nUsedPart (id :: L) := by
  have h' : LI N mode (s.setTr id { s.tr id with donated := true }).tr s.hl s.nUsedRel s.nUsedPart L :=
    h.congr (fun x hx => setTr_ne _ _ (by rintro rfl; exact hm hx))
  unfold donateTo
  rw [if_pos ⟨hv.longest, hr⟩]
  have hnot : ∀ k j, id ∉ (s.hl k).lists j := by
    intro k j hc
    exact hm ((h.mem k j id).1 hc).1
  obtain ⟨h1, e, e1, _, hi⟩ := add_spec (h.inv .donated) (i := (s.tr id).free.longestFree) hv.longest (hnot .donated)
  rw [e]
  exact ⟨_, rfl, h'.add hm (by simp [F.setTr, place]) hi e1 (fun d => by simp [F.setTr]) (fun d => by simp [F.setTr])⟩

end Verif.Filler
