import Verif.PageMap.Model
/-! What the page map should answer: plain functions on page numbers. -/
namespace Verif.PageMap

/-- The build constants: three levels, and a leaf covers at least a hugepage (the `static_assert`s at
pagemap.h:93 and 100). -/
structure Cfg.OK (c : Cfg) : Prop where
  root : 0 < c.rootBits
  leaf : 21 ≤ c.leafBits + c.pageShift
  page : c.pageShift ≤ 21
  small : c.bits ≤ 52

/-- The intended contents: for each page its descriptor, the class stored next to the descriptor, the class
in the separate array; for each hugepage its slot. -/
structure View where
  span : Nat → Nat
  cls : Nat → Nat
  fast : Nat → Nat
  huge : Nat → Nat

def View.init : View := ⟨fun _ => 0, fun _ => 0, fun _ => 0, fun _ => 0⟩

/-- What each operation should do. -/
def View.step (c : Cfg) (v : View) : Op → View
  | .ensure _ _ => v
  | .set k s => { v with span := fun p => if p = k then s else v.span p,
                         cls := fun p => if p = k then 0 else v.cls p }
  | .register s sc first n =>
    { v with span := fun p => if first ≤ p ∧ p < first + n then s else v.span p,
             cls := fun p => if first ≤ p ∧ p < first + n then sc else v.cls p,
             fast := fun p => if first ≤ p ∧ p < first + n then sc else v.fast p }
  | .unregister first n =>
    { v with fast := fun p => if first ≤ p ∧ p < first + n then 0 else v.fast p }
  | .setHuge k x =>
    { v with huge := fun h => if h = k / 2 ^ (21 - c.pageShift) then x else v.huge h }

def View.run (c : Cfg) : View → List Op → View
  | v, [] => v
  | v, o :: os => View.run c (v.step c o) os

/-- Descriptor addresses have 48 bits, size classes 16. -/
def Op.OK : Op → Prop
  | .set _ s => s < 2 ^ 48
  | .register s sc _ _ => s < 2 ^ 48 ∧ sc < 2 ^ 16
  | _ => True

end Verif.PageMap
