import Verif.Treatment.Spec
import Verif.Filler.Treat
import Verif.Util
/-! Selecting hugepages: the invariant of the loops. -/
namespace Verif.Treatment
open Verif.Bitmap Verif.RangeTracker Verif.PageTracker Verif.HintedLists Verif.Filler

/-- The order as one number. -/
def key (tr : Nat → PT) (a : Nat) : Nat := 2 * (tr a).objects + (if (tr a).dense then 1 else 0)

theorem better_key (tr : Nat → PT) (a b : Nat) : better tr a b = decide (key tr b < key tr a) := by
  unfold better key
  by_cases h1 : (tr a).objects > (tr b).objects
  · rw [if_pos h1]; symm; rw [decide_eq_true_eq]; split <;> split <;> omega
  · rw [if_neg h1]
    by_cases h2 : (tr a).objects < (tr b).objects
    · rw [if_pos h2]; symm; rw [decide_eq_false_iff_not]; split <;> split <;> omega
    · rw [if_neg h2]
      have : (tr a).objects = (tr b).objects := by omega
      cases ha : (tr a).dense <;> cases hb : (tr b).dense <;> simp [this]

theorem strict_better (tr : Nat → PT) : Strict (better tr) := by
  constructor <;> intros <;> simp only [better_key, decide_eq_true_eq, decide_eq_false_iff_not] at * <;> omega

theorem better_iff (f : F) (a b : Nat) : Better f a b ↔ better f.tr a b = true := by
  rw [better_key, decide_eq_true_eq]
  unfold Better key
  cases ha : (f.tr a).dense <;> cases hb : (f.tr b).dense <;> simp <;> omega

/-- Trackers that differ in their pins only. -/
def Pins (f0 : F) (A B : List Nat) (f : F) : Prop :=
  ∃ tr, f = { f0 with tr := tr } ∧ ∀ x, tr x = { f0.tr x with dontFree :=
    ((f0.tr x).dontFree ||| (if x ∈ A then 1 else 0)) ||| (if x ∈ B then 2 else 0) }

theorem pin_eq (b : Nat) (f0 : F) (tr : Nat → PT) (id : Nat) :
    pin b { f0 with tr := tr } id = { f0 with tr := upd tr id { tr id with dontFree := (tr id).dontFree ||| b } } := rfl

theorem unpin_eq (b : Nat) (f0 : F) (tr : Nat → PT) (id : Nat) :
    unpin b { f0 with tr := tr } id = { f0 with tr := upd tr id { tr id with dontFree := (tr id).dontFree &&& (255 ^^^ b) } } := rfl

theorem Pins.tag {f0 f : F} {A B : List Nat} (h : Pins f0 A B f) (id : Nat) : Pins f0 (A ++ [id]) B (pin kSampled f id) := by
  obtain ⟨tr, rfl, ht⟩ := h
  refine ⟨_, pin_eq _ _ _ _, fun x => ?_⟩
  by_cases hx : x = id
  · subst hx
    rw [upd, if_pos rfl, ht x]
    simp only [List.mem_append, List.mem_singleton, or_true, if_true, kSampled]
    congr 1
    by_cases ha : x ∈ A <;> by_cases hb : x ∈ B <;> simp [ha, hb, Nat.or_assoc]
  · rw [upd, if_neg hx, ht x]
    simp only [List.mem_append, List.mem_singleton, hx, or_false]

theorem Pins.col {f0 f : F} {A B : List Nat} (h : Pins f0 A B f) (id : Nat) : Pins f0 A (B ++ [id]) (pin kCollapse f id) := by
  obtain ⟨tr, rfl, ht⟩ := h
  refine ⟨_, pin_eq _ _ _ _, fun x => ?_⟩
  by_cases hx : x = id
  · subst hx
    rw [upd, if_pos rfl, ht x]
    simp only [List.mem_append, List.mem_singleton, or_true, if_true, kCollapse]
    congr 1
    by_cases ha : x ∈ B <;> simp [ha, Nat.or_assoc]
  · rw [upd, if_neg hx, ht x]
    simp only [List.mem_append, List.mem_singleton, hx, or_false]

theorem Pins.perm {f0 f : F} {A B B' : List Nat} (h : Pins f0 A B f) (hp : ∀ x, x ∈ B ↔ x ∈ B') : Pins f0 A B' f := by
  obtain ⟨tr, e, ht⟩ := h
  refine ⟨tr, e, fun x => ?_⟩
  rw [ht x]
  simp only [hp x]

theorem Pins.uncol {f0 f : F} {A B B' : List Nat} (h : Pins f0 A B f) {id : Nat} (h0 : (f0.tr id).dontFree = 0)
    (hp : ∀ x, x ∈ B' ↔ x ∈ B ∧ x ≠ id) : Pins f0 A B' (unpin kCollapse f id) := by
  obtain ⟨tr, rfl, ht⟩ := h
  refine ⟨_, unpin_eq _ _ _ _, fun x => ?_⟩
  by_cases hx : x = id
  · subst hx
    rw [upd, if_pos rfl, ht x]
    simp only [hp, ne_eq, not_true, and_false, if_false, kCollapse, h0]
    congr 1
    by_cases ha : x ∈ A <;> by_cases hb : x ∈ B <;> simp [ha, hb]
  · rw [upd, if_neg hx, ht x]
    simp only [hp, ne_eq, hx, not_false_eq_true, and_true]

theorem Pins.better {f0 f : F} {A B : List Nat} (h : Pins f0 A B f) : better f.tr = better f0.tr := by
  obtain ⟨tr, rfl, ht⟩ := h
  funext a b
  show Treatment.better tr a b = _
  unfold Treatment.better
  rw [ht a, ht b]

theorem Pins.huge {f0 f : F} {A B : List Nat} (h : Pins f0 A B f) (x : Nat) : (f.tr x).hugeBacked = (f0.tr x).hugeBacked := by
  obtain ⟨tr, rfl, ht⟩ := h
  show (tr x).hugeBacked = _
  rw [ht x]

/-- A visited hugepage to be named. -/
def tagOk (limit now : Nat) (i0 : Nat → Info) (v : Nat × Bool × Bool) : Bool :=
  v.2.1 && (i0 v.1).sampled && decide (limit < now - (i0 v.1).tagTime)

/-- A visited hugepage to be looked at. -/
def colOk (limit now : Nat) (f0 : F) (i0 : Nat → Info) (v : Nat × Bool × Bool) : Bool :=
  v.2.2 && !(f0.tr v.1).hugeBacked && (!(i0 v.1).valid || decide (limit < now - (i0 v.1).recTime))

/-- The best of a list of hugepages. -/
structure Best (IsHeap : (Nat → Nat → Bool) → List Nat → Prop) (f0 : F) (E col : List Nat) : Prop where
  nd : col.Nodup
  len : col.length = min kTotal E.length
  sub : ∀ x ∈ col, x ∈ E
  best : ∀ x ∈ E, x ∉ col → ∀ y ∈ col, better f0.tr x y = false
  heap : col.length = kTotal → IsHeap (better f0.tr) col

structure SInv (IsHeap : (Nat → Nat → Bool) → List Nat → Prop) (limit now : Nat) (f0 : F) (i0 : Nat → Info)
    (V : List (Nat × Bool × Bool)) (s : Sel) : Prop where
  pins : Pins f0 s.tag s.col s.f
  info : ∀ x, s.info x = if x ∈ s.tag then { i0 x with tagTime := now } else i0 x
  tag : s.tag = ((V.filter (tagOk limit now i0)).map Prod.fst).take kTotal
  col : Best IsHeap f0 ((V.filter (colOk limit now f0 i0)).map Prod.fst) s.col

variable {H : StdHeap} {IsHeap : (Nat → Nat → Bool) → List Nat → Prop} {limit now : Nat} {f0 : F} {i0 : Nat → Info}

/-- Choosing among one more hugepage. -/
theorem Best.push (hH : H.Lawful IsHeap) {E : List Nat} {s : Sel} (b : Best IsHeap f0 E s.col) (p : Pins f0 s.tag s.col s.f)
    {id : Nat} (hid : id ∉ E) (hz : ∀ x ∈ E, (f0.tr x).dontFree = 0) :
    Best IsHeap f0 (E ++ [id]) (pushCandidate H s id).col ∧
    Pins f0 s.tag (pushCandidate H s id).col (pushCandidate H s id).f ∧
    (pushCandidate H s id).tag = s.tag ∧ (pushCandidate H s id).info = s.info := by
  have hS := strict_better f0.tr
  have hn : id ∉ s.col := fun h => hid (b.sub id h)
  unfold pushCandidate
  rw [p.better]
  by_cases hl : s.col.length < kTotal
  · rw [if_pos hl]
    have hE : E.length = s.col.length := by have := b.len; omega
    have hall : ∀ x ∈ E, x ∈ s.col := by
      intro x hx
      apply Classical.byContradiction
      intro hc
      have h1 : (x :: s.col).Nodup := List.nodup_cons.2 ⟨hc, b.nd⟩
      have h2 : ∀ y ∈ x :: s.col, y ∈ E := by
        intro y hy
        rcases List.mem_cons.1 hy with rfl | hy
        · exact hx
        · exact b.sub y hy
      have := nodup_subset_length h1 h2
      simp only [List.length_cons] at this
      omega
    have hnd : (s.col ++ [id]).Nodup := by
      rw [List.nodup_append]
      exact ⟨b.nd, by simp, fun a ha c hc e => hn (by rw [List.mem_singleton] at hc; rw [← hc, ← e]; exact ha)⟩
    have hperm : ∀ c : List Nat, c.Perm (s.col ++ [id]) → (c.length = kTotal → IsHeap (better f0.tr) c) →
        Best IsHeap f0 (E ++ [id]) c := by
      intro c hc hh
      refine ⟨hc.nodup_iff.2 hnd, ?_, ?_, ?_, hh⟩
      · rw [hc.length_eq, List.length_append, List.length_append, hE]
        simp only [List.length_cons, List.length_nil]
        omega
      · intro x hx
        have := hc.mem_iff.1 hx
        rw [List.mem_append] at this ⊢
        exact this.imp (b.sub x) (fun h => h)
      · intro x hx hno
        exfalso
        apply hno
        rw [hc.mem_iff, List.mem_append]
        rw [List.mem_append] at hx
        exact hx.imp (hall x) (fun h => h)
    by_cases hk : (s.col ++ [id]).length = kTotal
    · simp only [hk, if_true]
      obtain ⟨m1, m2⟩ := hH.make (s.col ++ [id]) hS
      exact ⟨hperm _ m1 (fun _ => m2), (p.col id).perm (fun x => m1.mem_iff.symm), trivial, trivial⟩
    · simp only [hk, if_false]
      exact ⟨hperm _ (List.Perm.refl _) (fun h => absurd h hk), p.col id, trivial, trivial⟩
  · rw [if_neg hl]
    have hfull : s.col.length = kTotal := by have := b.len; omega
    have hheap := b.heap hfull
    obtain ⟨a, l, hc⟩ : ∃ a l, s.col = a :: l := by
      cases h : s.col with
      | nil => rw [h] at hfull; exact absurd hfull (by decide)
      | cons a l => exact ⟨a, l, rfl⟩
    have hEl : kTotal ≤ E.length := by have := b.len; omega
    rw [hc] at hheap
    have hfr := hH.front hS hheap
    have hh : s.col.headD 0 = a := by rw [hc]; rfl
    rw [hh]
    by_cases hb : better f0.tr a id = true
    · rw [if_pos hb]
      refine ⟨⟨b.nd, ?_, ?_, ?_, b.heap⟩, p, rfl, rfl⟩
      · rw [List.length_append, hfull]; omega
      · intro x hx; exact List.mem_append.2 (Or.inl (b.sub x hx))
      · intro x hx hno y hy
        rcases List.mem_append.1 hx with hx | hx
        · exact b.best x hx hno y hy
        · rw [List.mem_singleton] at hx
          subst hx
          have := hfr y (by rw [← hc]; exact hy)
          simp only [better_key, decide_eq_true_eq, decide_eq_false_iff_not] at *
          omega
    · rw [if_neg hb]
      obtain ⟨r, e1, e2, e3⟩ := hH.pop hS hheap
      obtain ⟨q1, q2⟩ := hH.push id hS e3
      have hb' : better f0.tr a id = false := by simpa using hb
      have hrl : r.length = l.length := e2.length_eq
      have hnd : (a :: l).Nodup := by rw [← hc]; exact b.nd
      have hal : a ∉ l := (List.nodup_cons.1 hnd).1
      have har : a ∉ r := fun h => hal (e2.mem_iff.1 h)
      have hsubl : ∀ x, x ∈ r → x ∈ s.col := fun x hx => by rw [hc]; exact List.mem_cons_of_mem _ (e2.mem_iff.1 hx)
      have hda : id ≠ a := fun e => hn (by rw [hc, e]; exact List.mem_cons_self)
      have hmem : ∀ x, x ∈ H.push (better f0.tr) (r ++ [id]) ↔ x ∈ r ∨ x = id := fun x => by
        rw [q1.mem_iff, List.mem_append, List.mem_singleton]
      have e1' : H.pop (better f0.tr) s.col = r ++ [a] := by rw [hc]; exact e1
      simp only [e1', List.dropLast_concat, List.getLastD_concat]
      refine ⟨⟨?_, ?_, ?_, ?_, ?_⟩, ?_, trivial, trivial⟩
      · rw [q1.nodup_iff, List.nodup_append]
        exact ⟨e2.nodup_iff.2 (List.nodup_cons.1 hnd).2, by simp, fun x hx c hc' e =>
          hn (by rw [List.mem_singleton] at hc'; rw [← hc', ← e]; exact hsubl x hx)⟩
      · rw [q1.length_eq, List.length_append, List.length_append, hrl]
        rw [hc, List.length_cons] at hfull
        simp only [List.length_cons, List.length_nil]
        omega
      · intro x hx
        rw [hmem] at hx
        exact List.mem_append.2 (hx.imp (fun h => b.sub x (hsubl x h)) (fun h => by simp [h]))
      · intro x hx hno y hy
        rw [hmem] at hno hy
        have hxa : better f0.tr x a = false ∨ x = id := by
          rcases List.mem_append.1 hx with hx | hx
          · by_cases hxc : x ∈ s.col
            · have : x = a := by
                rw [hc] at hxc
                rcases List.mem_cons.1 hxc with h | h
                · exact h
                · exact absurd (Or.inl (e2.mem_iff.2 h)) hno
              rw [this]
              exact Or.inl (hS.irrefl a)
            · exact Or.inl (b.best x hx hxc a (by rw [hc]; exact List.mem_cons_self))
          · exact Or.inr (by simpa using hx)
        have hxa : better f0.tr x a = false := hxa.resolve_right (fun e => hno (Or.inr e))
        have hay : better f0.tr a y = false := by
          rcases hy with hy | rfl
          · exact hfr y (List.mem_cons_of_mem _ (e2.mem_iff.1 hy))
          · exact hb'
        exact hS.incomp x a y hxa hay
      · intro _; exact q2
      · refine (Pins.uncol (p.col id) (id := a) (hz a (b.sub a (by rw [hc]; exact List.mem_cons_self))) ?_)
        intro x
        rw [hmem, List.mem_append, List.mem_singleton, hc, List.mem_cons, ← e2.mem_iff]
        constructor
        · rintro (h | rfl)
          · exact ⟨Or.inl (Or.inr h), fun e => har (e ▸ h)⟩
          · exact ⟨Or.inr rfl, hda⟩
        · rintro ⟨(h | h) | h, h'⟩
          · exact absurd h h'
          · exact Or.inl h
          · exact Or.inr h

/-- One more visit. -/
theorem SInv.next (hH : H.Lawful IsHeap) {V : List (Nat × Bool × Bool)} {s : Sel} (h : SInv IsHeap limit now f0 i0 V s)
    {v : Nat × Bool × Bool} (hv : v.1 ∉ V.map Prod.fst) (hz : ∀ x ∈ V, (f0.tr x.1).dontFree = 0) :
    SInv IsHeap limit now f0 i0 (V ++ [v]) (visit H limit now s v) := by
  have hsub : ∀ (q : Nat × Bool × Bool → Bool) x, x ∈ (V.filter q).map Prod.fst → x ∈ V.map Prod.fst := by
    intro q x hx
    obtain ⟨y, hy, rfl⟩ := List.mem_map.1 hx
    exact List.mem_map.2 ⟨y, (List.mem_filter.1 hy).1, rfl⟩
  have hvt : v.1 ∉ s.tag := by
    intro hc
    rw [h.tag] at hc
    exact hv (hsub _ _ (List.mem_of_mem_take hc))
  have hi : s.info v.1 = i0 v.1 := by rw [h.info, if_neg hvt]
  -- naming
  obtain ⟨s1, e1, k1, k2⟩ : ∃ s1, s1 = (if v.2.1 then selectTag limit now s v.1 else s) ∧
      s1.col = s.col ∧
      (Pins f0 s1.tag s1.col s1.f ∧ (∀ x, s1.info x = if x ∈ s1.tag then { i0 x with tagTime := now } else i0 x) ∧
        s1.tag = (((V ++ [v]).filter (tagOk limit now i0)).map Prod.fst).take kTotal) := by
    refine ⟨_, rfl, ?_⟩
    have hno : tagOk limit now i0 v = false → s.tag = (((V ++ [v]).filter (tagOk limit now i0)).map Prod.fst).take kTotal := by
      intro hf
      rw [List.filter_append, List.filter_cons_of_neg (by simp [hf]), List.filter_nil, List.append_nil]
      exact h.tag
    by_cases hw : v.2.1 = true
    · rw [if_pos hw]
      unfold selectTag
      by_cases hl : s.tag.length ≥ kTotal
      · rw [if_pos hl]
        refine ⟨rfl, h.pins, h.info, ?_⟩
        rw [List.filter_append, List.map_append, List.take_append_of_le_length]
        · exact h.tag
        · rw [h.tag, List.length_take] at hl
          omega
      · rw [if_neg hl, hi]
        by_cases hs : (i0 v.1).sampled = true
        · rw [if_neg (by simp [hs])]
          by_cases ht : now - (i0 v.1).tagTime > limit
          · rw [if_pos ht]
            have hok : tagOk limit now i0 v = true := by unfold tagOk; simp [hw, hs]; exact ht
            refine ⟨rfl, h.pins.tag v.1, ?_, ?_⟩
            · intro x
              show upd s.info v.1 _ x = _
              unfold upd
              by_cases hx : x = v.1
              · subst hx
                simp only [if_true, List.mem_append, List.mem_singleton, or_true, ← hs]
              · rw [if_neg hx, h.info]
                simp only [List.mem_append, List.mem_singleton, hx, or_false]
            · show s.tag ++ [v.1] = _
              rw [List.filter_append, List.filter_cons_of_pos hok, List.filter_nil, List.map_append]
              have hlen : ((V.filter (tagOk limit now i0)).map Prod.fst).length < kTotal := by
                rw [h.tag, List.length_take] at hl
                omega
              have htag := h.tag
              rw [List.take_of_length_le (by omega)] at htag
              rw [← htag] at hlen
              rw [← htag, List.take_of_length_le (by rw [List.length_append]; simp only [List.map_cons, List.map_nil, List.length_cons, List.length_nil]; omega)]
              rfl
          · rw [if_neg ht]
            exact ⟨rfl, h.pins, h.info, hno (by unfold tagOk; simp only [hw, hs, Bool.true_and]; rw [decide_eq_false_iff_not]; exact ht)⟩
        · rw [if_pos (by simpa using hs)]
          exact ⟨rfl, h.pins, h.info, hno (by unfold tagOk; simp [Bool.eq_false_iff.2 hs])⟩
    · rw [if_neg hw]
      exact ⟨rfl, h.pins, h.info, hno (by unfold tagOk; simp [Bool.eq_false_iff.2 hw])⟩
  obtain ⟨k2, k3, k4⟩ := k2
  unfold visit
  simp only
  rw [← e1]
  have hb : Best IsHeap f0 ((V.filter (colOk limit now f0 i0)).map Prod.fst) s1.col := by rw [k1]; exact h.col
  have hno : colOk limit now f0 i0 v = false → SInv IsHeap limit now f0 i0 (V ++ [v]) s1 := by
    intro hf
    refine ⟨k2, k3, k4, ?_⟩
    rw [List.filter_append, List.filter_cons_of_neg (by simp [hf]), List.filter_nil, List.append_nil]
    exact hb
  have hyes : colOk limit now f0 i0 v = true → SInv IsHeap limit now f0 i0 (V ++ [v]) (pushCandidate H s1 v.1) := by
    intro hf
    obtain ⟨p1, p2, p3, p4⟩ := hb.push hH k2 (id := v.1) (fun hc => hv (hsub _ _ hc)) (by
      intro x hx
      obtain ⟨y, hy, rfl⟩ := List.mem_map.1 hx
      exact hz y (List.mem_filter.1 hy).1)
    refine ⟨by rw [p3]; exact p2, by rw [p3, p4]; exact k3, by rw [p3]; exact k4, ?_⟩
    rw [List.filter_append, List.filter_cons_of_pos hf, List.filter_nil, List.map_append]
    exact p1
  have hinf : (s1.info v.1).valid = (i0 v.1).valid ∧ (s1.info v.1).recTime = (i0 v.1).recTime := by
    rw [k3]
    split <;> exact ⟨rfl, rfl⟩
  by_cases hw : v.2.2 = true
  · rw [if_pos hw]
    unfold selectCol
    rw [k2.huge, hinf.1, hinf.2]
    by_cases hg : (f0.tr v.1).hugeBacked = true
    · rw [if_pos hg]
      exact hno (by unfold colOk; simp [hg])
    · rw [if_neg hg]
      by_cases hva : (i0 v.1).valid = true
      · rw [if_neg (by simp [hva])]
        by_cases ht : now - (i0 v.1).recTime > limit
        · rw [if_pos ht]
          exact hyes (by unfold colOk; simp only [hw, Bool.eq_false_iff.2 hg, hva]; simp; exact ht)
        · rw [if_neg ht]
          refine hno ?_
          unfold colOk
          simp only [hva, Bool.not_true, Bool.false_or]
          rw [decide_eq_false ht, Bool.and_false]
      · rw [if_pos (by simpa using hva)]
        exact hyes (by unfold colOk; simp [hw, hg, Bool.eq_false_iff.2 hva])
  · rw [if_neg hw]
    exact hno (by unfold colOk; simp [Bool.eq_false_iff.2 hw])

theorem SInv.all (hH : H.Lawful IsHeap) : ∀ (L V : List (Nat × Bool × Bool)) (s : Sel), SInv IsHeap limit now f0 i0 V s →
    ((V ++ L).map Prod.fst).Nodup → (∀ x ∈ V ++ L, (f0.tr x.1).dontFree = 0) →
    SInv IsHeap limit now f0 i0 (V ++ L) (L.foldl (Treatment.visit H limit now) s) := by
  intro L
  induction L with
  | nil => intro V s h _ _; rw [List.append_nil]; exact h
  | cons v L ih =>
    intro V s h hnd hz
    rw [List.foldl_cons]
    have e : V ++ v :: L = (V ++ [v]) ++ L := by simp
    rw [e] at hnd hz ⊢
    refine ih _ _ (h.next hH ?_ (fun x hx => hz x (by simp [hx]))) hnd hz
    rw [List.map_append, List.map_append, List.nodup_append] at hnd
    have := (List.nodup_append.1 hnd.1).2.2
    intro hc
    exact this v.1 hc v.1 (by simp) rfl

theorem SInv.start : SInv IsHeap limit now f0 i0 [] ⟨f0, i0, [], []⟩ :=
  ⟨⟨f0.tr, rfl, fun x => by simp⟩, fun x => by simp, by simp, ⟨by simp, by simp, by simp, by simp, fun h => (nomatch (show (0 : Nat) = 64 from h))⟩⟩

end Verif.Treatment
