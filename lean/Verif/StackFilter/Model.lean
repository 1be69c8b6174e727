/-!
Model of the stack-trace filters, /repo/tcmalloc/internal/stacktrace_filter.h.

Every atomic operation is one step: a call in progress is the list of the atomic operations it still has to do, and the
steps of any number of calls may be interleaved in any order.  Hash values are natural numbers; the hash function
`absl::HashOf` is arbitrary.  A stack trace is represented by its first hash.
-/
namespace Verif.StackFilter

structure Cfg where
  /-- `kSize` -/
  size : Nat
  /-- `kHashNum` -/
  hashNum : Nat
  /-- `kDecaySteps` -/
  steps : Nat
  /-- `GetNextHash` -/
  next : Nat → Nat

/-- The `static_assert`s of lines 51-52, a ring that is not empty, and a ring size that divides 2^64, as in the only use
(guarded_page_allocator.h). -/
structure Cfg.OK (c : Cfg) : Prop where
  size : 0 < c.size
  hashNum : 0 < c.hashNum
  steps : 0 < c.steps
  ring : c.steps ∣ 2 ^ 64

/-- The counters belonging to a hash, in the order of the loops at lines 61-65 and 88-91. -/
def Cfg.cellsN (c : Cfg) : Nat → Nat → List Nat
  | 0, _ => []
  | n + 1, h => h % c.size :: c.cellsN n (c.next h)

def Cfg.cells (c : Cfg) (h : Nat) : List Nat := c.cellsN c.hashNum h

/-- The atomic operations. -/
inductive Act where
  | takePos (h : Nat)        -- `pos_.fetch_add(1)`, line 143
  | exch (p h : Nat)         -- `ring(pos).exchange(h)`, line 145
  | bump (cell : Nat) (d : Int)   -- `counts_[cell].fetch_add(d)`, line 89
  deriving Repr, DecidableEq

structure S where
  counts : Nat → Int
  ring : List Nat
  pos : Nat
  calls : List (List Act)

/-- A filter as constructed. -/
def S.init (c : Cfg) : S := ⟨fun _ => 0, List.replicate c.steps 0, 0, []⟩

/-- `Base::Add`, lines 87-92. -/
def adds (c : Cfg) (h : Nat) (d : Int) : List Act := (c.cells h).map fun k => .bump k d

/-- `Add`, lines 116-127. -/
def addCall (c : Cfg) (h : Nat) (v : Int) : List Act :=
  if 0 ≤ v then .takePos h :: adds c h (v + if h = 0 then 0 else 1) else adds c h v

/-- `Decay()`, line 130. -/
def decayCall : List Act := [.takePos 0]

/-- `DecayAll`, lines 133-137. -/
def decayAllCall (c : Cfg) : List Act := List.replicate c.steps (.takePos 0)

/-- One atomic operation: the new state, and what the call has to do then. -/
def act (c : Cfg) (s : S) : Act → S × List Act
  | .takePos h => ({ s with pos := (s.pos + 1) % 2 ^ 64 }, [.exch s.pos h])
  | .exch p h =>
    let old := s.ring[p % c.steps]?.getD 0
    ({ s with ring := s.ring.set (p % c.steps) h }, if old = 0 then [] else adds c old (-1))
  | .bump k d => ({ s with counts := fun j => if j = k then (s.counts j + d) % 65536 else s.counts j }, [])

inductive Ev where
  | add (h : Nat) (v : Int)
  | decay
  | decayAll
  | run (i : Nat)
  deriving Repr

/-- A call begins, or call `i` does its next atomic operation. -/
def step (c : Cfg) (s : S) : Ev → Option S
  | .add h v => some { s with calls := s.calls ++ [addCall c h v] }
  | .decay => some { s with calls := s.calls ++ [decayCall] }
  | .decayAll => some { s with calls := s.calls ++ [decayAllCall c] }
  | .run i =>
    match s.calls[i]? with
    | some (a :: rest) => some { (act c s a).1 with calls := s.calls.set i ((act c s a).2 ++ rest) }
    | _ => none

/-- `Contains`, lines 58-68, when no call is in progress. -/
def contains (c : Cfg) (s : S) (h : Nat) : Bool := (c.cells h).all fun k => s.counts k != 0

/-- A call run to its end without interruption: `n` bounds the number of atomic operations. -/
def runCall (c : Cfg) : Nat → S → List Act → S
  | _, s, [] => s
  | 0, s, _ => s
  | n + 1, s, a :: rest => runCall c n (act c s a).1 ((act c s a).2 ++ rest)

end Verif.StackFilter
