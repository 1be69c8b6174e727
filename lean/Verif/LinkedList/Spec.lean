import Verif.LinkedList.Model
/-! Specifications: what it means for memory to hold a list, and histories over many lists sharing elements. -/
namespace Verif.LinkedList

/-- Following `nxt` from `p` visits exactly `L` and ends at null. -/
def Holds (nxt : Ptr → Ptr) : Ptr → List Ptr → Prop
  | p, [] => p = 0
  | p, x :: L => p = x ∧ x ≠ 0 ∧ Holds nxt (nxt x) L

/-- Histories of one `LinkedList`, with the sequence it should hold.  An object is pushed only when it is not on
the list; a batch is popped only when the list is long enough; other memory may change freely between calls. -/
inductive Hist : S → List Ptr → Prop where
  | new (nxt : Ptr → Ptr) : Hist ⟨nxt, 0, 0⟩ []
  | push {s s' L p} : Hist s L → p ∉ L → push s p = some s' → Hist s' (p :: L)
  | pop {s s' L p} : Hist s (p :: L) → tryPop s = some (s', some p) → Hist s' L
  | pushBatch {s s' L b} : Hist s L → b.Nodup → (∀ p ∈ b, p ∉ L) → pushBatch s b = some s' → Hist s' (b ++ L)
  | popBatch {s s' b L} : Hist s (b ++ L) → popBatch s b.length = some (s', b) → Hist s' L
  | write {s L} (p v : Ptr) : Hist s L → p ∉ L → Hist { s with nxt := upd s.nxt p v } L

/-- One step of what doubly linked lists should do: `c h` is the sequence held by the list with head `h`. -/
inductive Op where
  | prepend (h x : Ptr)
  | append (h x : Ptr)
  | prependAt (h at_ x : Ptr)
  | appendAt (h at_ x : Ptr)
  | remove (h x : Ptr)
  deriving Repr

/-- `x` is not null, not a list head and on no list. -/
def Fresh (H : List Ptr) (c : Ptr → List Ptr) (x : Ptr) : Prop := x ≠ 0 ∧ x ∉ H ∧ ∀ h ∈ H, x ∉ c h

/-- The specification of each operation on sequences. -/
inductive SpecStep (H : List Ptr) (c : Ptr → List Ptr) : Op → (Ptr → List Ptr) → Option Bool → Prop where
  | prepend (h x) : h ∈ H → Fresh H c x → SpecStep H c (.prepend h x) (upd c h (x :: c h)) none
  | append (h x) : h ∈ H → Fresh H c x → SpecStep H c (.append h x) (upd c h (c h ++ [x])) none
  | prependAt (h a x) (A B) : h ∈ H → Fresh H c x → c h = A ++ a :: B →
      SpecStep H c (.prependAt h a x) (upd c h (A ++ x :: a :: B)) none
  | appendAt (h a x) (A B) : h ∈ H → Fresh H c x → c h = A ++ a :: B →
      SpecStep H c (.appendAt h a x) (upd c h (A ++ a :: x :: B)) none
  | remove (h x) (A B) : h ∈ H → c h = A ++ x :: B →
      SpecStep H c (.remove h x) (upd c h (A ++ B)) (some (A ++ B).isEmpty)

/-- The model's execution of an operation. -/
def exec (m : M) : Op → Option (M × Option Bool)
  | .prepend h x => (prepend m h x).map (·, none)
  | .append h x => (append m h x).map (·, none)
  | .prependAt h a x => (prependAt m h a x).map (·, none)
  | .appendAt h a x => (appendAt m h a x).map (·, none)
  | .remove h x => (remove m h x).map (fun r => (r.1, some r.2))

/-- Histories over lists with heads `H`, with the sequences they should hold.  Elements start with `list_` null. -/
inductive Reach (H : List Ptr) : M → (Ptr → List Ptr) → Prop where
  | init (m : M) : H.Nodup → 0 ∉ H → (∀ x, m.owner x = 0) → Reach H (H.foldl initHead m) (fun _ => [])
  | step {m c op m' c' r} : Reach H m c → SpecStep H c op c' r → exec m op = some (m', r) → Reach H m' c'

end Verif.LinkedList
