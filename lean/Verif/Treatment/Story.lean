import Verif.Treatment.Props
/-! Selection on concrete fillers. -/
namespace Verif.Treatment
open Verif.Bitmap Verif.RangeTracker Verif.PageTracker Verif.HintedLists Verif.Filler

/-! ### Heap functions that satisfy the standard: sorted arrays -/

/-- Inserts an element before the first that is not greater. -/
def ins (lt : Nat → Nat → Bool) (x : Nat) : List Nat → List Nat
  | [] => [x]
  | a :: l => if lt x a then a :: ins lt x l else x :: a :: l

def sortedHeap : StdHeap where
  make lt l := l.foldr (ins lt) []
  pop _ l := l.tail ++ [l.headD 0]
  push lt l := ins lt (l.getLastD 0) l.dropLast

def Desc (lt : Nat → Nat → Bool) (l : List Nat) : Prop := l.Pairwise (fun a b => lt a b = false)

theorem ins_perm (lt : Nat → Nat → Bool) (x : Nat) : ∀ l, (ins lt x l).Perm (x :: l)
  | [] => List.Perm.refl _
  | a :: l => by
    unfold ins
    split
    · exact ((ins_perm lt x l).cons a).trans (List.Perm.swap x a l)
    · exact List.Perm.refl _

theorem ins_desc {lt : Nat → Nat → Bool} (h : Strict lt) (x : Nat) : ∀ l, Desc lt l → Desc lt (ins lt x l)
  | [], _ => List.pairwise_singleton _ _
  | a :: l, hl => by
    obtain ⟨h1, h2⟩ := List.pairwise_cons.1 hl
    unfold ins
    split
    · next hx =>
      refine List.pairwise_cons.2 ⟨fun b hb => ?_, ins_desc h x l h2⟩
      rcases List.mem_cons.1 ((ins_perm lt x l).mem_iff.1 hb) with rfl | hb
      · cases hc : lt a b with
        | false => rfl
        | true => have := h.trans a b a hc hx; rw [h.irrefl] at this; exact absurd this (by simp)
      · exact h1 b hb
    · next hx =>
      have hx : lt x a = false := by simpa using hx
      refine List.pairwise_cons.2 ⟨fun b hb => ?_, hl⟩
      rcases List.mem_cons.1 hb with rfl | hb
      · exact hx
      · exact h.incomp x a b hx (h1 b hb)

theorem sortedHeap_lawful : sortedHeap.Lawful Desc where
  front := by
    intro lt a l h hd x hx
    rcases List.mem_cons.1 hx with rfl | hx
    · exact h.irrefl x
    · exact (List.pairwise_cons.1 hd).1 x hx
  make := by
    intro lt l h
    induction l with
    | nil => exact ⟨List.Perm.refl _, List.Pairwise.nil⟩
    | cons a l ih => exact ⟨(ins_perm lt a _).trans (ih.1.cons a), ins_desc h a _ ih.2⟩
  pop := by
    intro lt a l h hd
    exact ⟨l, rfl, List.Perm.refl _, (List.pairwise_cons.1 hd).2⟩
  push := by
    intro lt r x h hd
    show (ins lt ((r ++ [x]).getLastD 0) (r ++ [x]).dropLast).Perm _ ∧ Desc lt (ins lt ((r ++ [x]).getLastD 0) (r ++ [x]).dropLast)
    rw [List.getLastD_concat, List.dropLast_concat]
    refine ⟨(ins_perm lt x r).trans ?_, ins_desc h x r hd⟩
    have := List.perm_append_comm (l₁ := [x]) (l₂ := r)
    exact this

/-! ### Two hugepages -/

def tA : PT := ((PageTracker.get 8 (PT.new 8 10 false) 3 5).map (·.1)).getD (PT.new 8 10 false)
def tB : PT := ((PageTracker.get 8 (PT.new 8 11 false) 2 9).map (·.1)).getD (PT.new 8 11 false)
def fA : F := (contribute 8 false (F.init 8) 0 tA false false).getD (F.init 8)
def fB : F := (contribute 8 false fA 1 tB false false).getD (F.init 8)

theorem tA_get : PageTracker.get 8 (PT.new 8 10 false) 3 5 = some (tA, 10 * 8 + 0, 0) := by decide +kernel
theorem tB_get : PageTracker.get 8 (PT.new 8 11 false) 2 9 = some (tB, 11 * 8 + 0, 0) := by decide +kernel

theorem some_getD {α : Type} {o : Option α} {d : α} (h : o.isSome = true) : o = some (o.getD d) := by
  cases o with
  | none => exact absurd h (by simp)
  | some a => rfl

theorem fA_some : (contribute 8 false (F.init 8) 0 tA false false).isSome = true := by decide +kernel
theorem fB_some : (contribute 8 false fA 1 tB false false).isSome = true := by decide +kernel

def gB : Gh := { Gh.init with
  live := upd (upd Gh.init.live 0 [⟨0, 3, 5⟩]) 1 [⟨0, 2, 9⟩]
  held := [1, 0] }

theorem fA_freed : fA.freed = [] := by decide +kernel

theorem two_reach : Filler.Reach 8 false fB gB := by
  have h0 : ¬ owned (F.init 8) Gh.init 0 := by unfold owned Gh.init F.init; simp
  have h1 := Filler.Reach.contribute (N := 8) (mode := false) (s' := fA) 0 10 3 5 0 0 false false Filler.Reach.init h0 tA_get
    (by simp) (by simp) (some_getD fA_some)
  have h2 : ¬ owned fA { Gh.init with live := upd Gh.init.live 0 [⟨0, 3, 5⟩], held := [0] } 1 := by
    unfold owned; rw [fA_freed]; simp [Gh.init]
  exact Filler.Reach.contribute (N := 8) (mode := false) (s' := fB) 1 11 2 9 0 0 false false h1 h2 tB_get
    (by simp) (by simp) (some_getD fB_some)

/-- Hugepage 0 was sampled and named long ago and looked at recently, hugepage 1 was never looked at. -/
def infoB : Nat → Info := fun x => if x = 0 then ⟨true, 5, true, 990⟩ else ⟨false, 0, false, 0⟩

example : (select sortedHeap 8 false 300 1000 fB infoB).map (fun s => (s.tag, s.col, (s.f.tr 0).dontFree, (s.f.tr 1).dontFree)) =
    some ([0], [1], 1, 2) := by decide +kernel

example : WantsLook 8 false 300 1000 fB infoB gB 1 ∧ WantsName 300 1000 fB infoB gB 0 := by
  refine ⟨⟨by simp [gB], by decide +kernel, by decide, fun _ => by decide +kernel⟩, by simp [gB], by decide +kernel, by decide, by decide⟩

/-! ### More than 64 hugepages, with 1 to 66 objects: the two with the fewest are left out -/

def many : Nat → Option F
  | 0 => some (F.init 2)
  | k + 1 => do
    let f ← many k
    let (t, _, _) ← PageTracker.get 2 (PT.new 2 k false) 1 (k + 1)
    contribute 2 false f k t false false

example : (((many 66).bind (fun f => select sortedHeap 2 false 300 1000 f (fun _ => ⟨false, 0, false, 0⟩))).map
    (fun s => (s.col.length, s.col.contains 0, s.col.contains 1, s.col.contains 2, (s.f.tr 0).dontFree, (s.f.tr 65).dontFree))) =
    some (64, false, false, true, 0, 2) := by decide +kernel

end Verif.Treatment
