import Verif.Guarded.Model
/-! The vocabulary of the properties of the guarded page allocator. -/
namespace Verif.Guarded

/-- The object page of a slot: object pages and guard pages alternate, beginning and ending with a guard page. -/
def Cfg.page (c : Cfg) (slot : Nat) : Nat := c.base + (2 * slot + 1) * c.ps

/-- `addr` lies on the object page of `slot`. -/
def Cfg.On (c : Cfg) (slot addr : Nat) : Prop := c.page slot ≤ addr ∧ addr < c.page slot + c.ps

/-- The distance of an address from the object page of a slot. -/
def Cfg.dist (c : Cfg) (addr slot : Nat) : Nat := (c.page slot - addr) + (addr - (c.page slot + c.ps - 1))

/-- Where an object may be: on its slot's page, aligned as requested and at least as the default alignment for its
size; in odd slots at the very start of the page, in even slots so close to the end that no other address with its
alignment lies between. -/
structure Placed (c : Cfg) (o : Obj) : Prop where
  slot : o.slot < c.total
  al_ok : o.al ≤ c.ps ∧ (o.al = 0 ∨ ∃ k, o.al = 2 ^ k)
  lo : c.page o.slot ≤ o.ptr
  hi : o.ptr + o.size ≤ c.page o.slot + c.ps
  aligned : o.al = 0 ∨ o.ptr % o.al = 0
  default : o.ptr % min (bitCeil o.size) newAlign = 0
  left : o.slot % 2 = 1 ∨ o.size = 0 → o.ptr = c.page o.slot
  right : o.slot % 2 = 0 → 0 < o.size → c.page o.slot + c.ps - (o.ptr + o.size) < effAlign o.size o.al

/-- The bytes behind an object that are checked when it is freed. -/
def Window (c : Cfg) (o : Obj) (a : Nat) : Prop :=
  o.slot % 2 = 0 ∧ 0 < o.size ∧ o.ptr + o.size ≤ a ∧ a < o.ptr + o.size + magicSize ∧ a < c.page o.slot + c.ps

/-- The objects in use after a step: `L` before. -/
def live' (L : List Obj) (s : S) : Ev → Out → List Obj
  | .allocate i _, .ptr (some p) =>
    match s.allocs[i]? with
    | some (slot, size, al) => ⟨p, slot, size, al⟩ :: L
    | none => L
  | .dealloc p, _ =>
    match L.find? fun o => o.ptr = p with
    | some o => L.erase o
    | none => L
  | _, _ => L

/-- What the program must respect: the documented preconditions of `Allocate`, freeing what is in use, storing only
into its objects. -/
def Pre (c : Cfg) (s : S) (L : List Obj) : Ev → Prop
  | .reserve size al _ => size ≤ c.ps ∧ al ≤ c.ps ∧ (al = 0 ∨ ∃ k, al = 2 ^ k)
  | .allocate i _ => i < s.allocs.length
  | .dealloc p => ∃ o ∈ L, o.ptr = p
  | .protect i => i < s.frees.length
  | .giveBack i => i < s.backs.length
  | .store a _ => ∃ o ∈ L, o.ptr ≤ a ∧ a < o.ptr + o.size

/-- Reachable states, with the objects in use. -/
inductive Reach (c : Cfg) : S → List Obj → Prop where
  | init (mem) : Reach c (S.init mem) []
  | step {s L e s' o} : Reach c s L → Pre c s L e → step c s e = some (s', o) → Reach c s' (live' L s e o)

/-- Slots reserved for allocations and deallocations in progress and for the objects in use. -/
def owners (s : S) (L : List Obj) : List Nat :=
  s.allocs.map Prod.fst ++ L.map Obj.slot ++ s.frees.map Prod.fst ++ s.backs

/-- The answer every call by a correct program gets. -/
def Expected (c : Cfg) (s : S) (L : List Obj) : Ev → Out → Prop
  | .reserve _ _ _, out =>
    (s.allocated = c.limit ∧ out = .slot none) ∨
    (s.allocated < c.limit ∧ ∃ j, out = .slot (some j) ∧ j < c.total ∧ j ∉ owners s L)
  | .allocate i ok, out => ∃ slot size al, s.allocs[i]? = some (slot, size, al) ∧
    ((size ≠ 0 ∧ ok = false ∧ out = .ptr none) ∨
     ((size = 0 ∨ ok = true) ∧ ∃ p, out = .ptr (some p) ∧ Placed c ⟨p, slot, size, al⟩))
  | .dealloc _, out => out = .cont
  | .protect _, out => out = .cont
  | .giveBack _, out => out = .done
  | .store _ _, out => out = .done

/-- Anything may happen between two states, as long as the program respects the rules. -/
inductive Run (c : Cfg) : S → List Obj → S → List Obj → Prop where
  | refl (s L) : Run c s L s L
  | step {s L s1 L1 e s2 o} : Run c s L s1 L1 → Pre c s1 L1 e → step c s1 e = some (s2, o) → Run c s L s2 (live' L1 s1 e o)

end Verif.Guarded
