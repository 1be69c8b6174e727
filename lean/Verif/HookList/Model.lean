/-!
`HookList` (tcmalloc/internal/hook_list.h): the lists of hooks behind `MallocHook` (malloc_hook.cc, malloc_hook_invoke.h).
Adding and removing take a lock; invoking reads the list without it.

Memory is sequentially consistent here (the code uses acquire and release).  A hook is a number, 0 the null pointer.  Loads made
under the lock are merged with the start of the call, since only holders of the lock store; stores are steps of their own.
-/
namespace Verif.HookList

/-- `kHookListMaxValues`, hook_list.h:37. -/
def maxValues : Nat := 7

/-- The call holding `hooklist_spinlock_`, before its next store: thread, hook, slot, `priv_end` as loaded. -/
inductive Writer
  /-- `Add` before `priv_data[index].store`, hook_list.h:125. -/
  | addData (t v i e : Nat)
  /-- `Add` before `priv_end.store`, hook_list.h:127. -/
  | addEnd (t v i : Nat)
  /-- `Remove` before `priv_data[index].store(0)`, hook_list.h:147. -/
  | remData (t v i e : Nat)
  /-- `Remove` before `priv_end.store`, hook_list.h:155. -/
  | remEnd (t v e : Nat)
  deriving DecidableEq

/-- A thread in `Invoke`: `empty()` was false, `Traverse` has not loaded `priv_end` (hook_list.h:162); or the loop of
`Traverse` before its load of `priv_data[i]` (hook_list.h:165), with `hooks_end`, what is left of `n`, and the output. -/
inductive Reader
  | start
  | loop (e i n : Nat) (out : List Nat)
  deriving DecidableEq

/-- `priv_end`, `priv_data` (hook_list.h:97-98), the lock, the threads in `Invoke`. -/
structure St where
  tail : Nat
  data : List Nat
  lock : Option Writer
  rd : Nat → Option Reader

/-- The constructors, hook_list.h:52-54: empty, or with one hook (`h ≠ 0`). -/
def empty : St := ⟨0, List.replicate maxValues 0, none, fun _ => none⟩
def single (h : Nat) : St := ⟨1, h :: List.replicate (maxValues - 1) 0, none, fun _ => none⟩

inductive Ev
  /-- `Add(v)` or `Remove(v)` is called and gets the lock (no lock is needed for null). -/
  | add (t v : Nat)
  | remove (t v : Nat)
  /-- The holder of the lock makes its next store. -/
  | write
  /-- `Invoke` is called. -/
  | invoke (t : Nat)
  /-- A thread in `Invoke` makes its next load. -/
  | read (t : Nat)
  deriving DecidableEq

inductive Out
  | none
  | added (t v : Nat) (ok : Bool)
  | removed (t v : Nat) (ok : Bool)
  /-- `Invoke` calls these hooks, in this order, and returns. -/
  | called (t : Nat) (l : List Nat)
  deriving DecidableEq

/-- The loop lowering `hooks_end`, hook_list.h:151-154. -/
def lower (data : List Nat) : Nat → Nat
  | 0 => 0
  | k + 1 => if data.getD k 0 = 0 then lower data k else k + 1

def setRd (f : Nat → Option Reader) (t : Nat) (r : Option Reader) : Nat → Option Reader := fun x => if x = t then r else f x

/-- The condition of the loop of `Traverse`, hook_list.h:164; `InvokeSlow` calls the hooks, hook_list.h:177-180. -/
def again (s : St) (t e i n : Nat) (out : List Nat) : St × Out :=
  if i < e ∧ n > 0 then ({ s with rd := setRd s.rd t (some (.loop e i n out)) }, .none)
  else ({ s with rd := setRd s.rd t none }, .called t out)

/-- One step; `none`: not possible now (the lock is held; the thread is not in such a call; index out of bounds). -/
def step (s : St) : Ev → Option (St × Out)
  -- hook_list.h:104-127
  | .add t v =>
    if v = 0 then some (s, .added t v false)
    else if s.lock.isSome then none
    else
      let i := s.data.findIdx (· == 0)
      if i = maxValues then some (s, .added t v false)
      else some ({ s with lock := some (.addData t v i s.tail) }, .none)
  -- hook_list.h:132-147
  | .remove t v =>
    if v = 0 then some (s, .removed t v false)
    else if s.lock.isSome then none
    else
      let i := (s.data.take s.tail).findIdx (· == v)
      if i = s.tail then some (s, .removed t v false)
      else some ({ s with lock := some (.remData t v i s.tail) }, .none)
  | .write =>
    match s.lock with
    | none => none
    -- hook_list.h:125-129
    | some (.addData t v i e) =>
      if i < s.data.length then
        if e ≤ i then some ({ s with data := s.data.set i v, lock := some (.addEnd t v i) }, .none)
        else some ({ s with data := s.data.set i v, lock := none }, .added t v true)
      else none
    | some (.addEnd t v i) => some ({ s with tail := i + 1, lock := none }, .added t v true)
    -- hook_list.h:147-157
    | some (.remData t v i e) =>
      if i < s.data.length then
        let data := s.data.set i 0
        if e = i + 1 then some ({ s with data := data, lock := some (.remEnd t v (lower data i)) }, .none)
        else some ({ s with data := data, lock := none }, .removed t v true)
      else none
    | some (.remEnd t v e) => some ({ s with tail := e, lock := none }, .removed t v true)
  -- `Invoke`, hook_list.h:85-89; `empty`, hook_list.h:71-77
  | .invoke t =>
    match s.rd t with
    | some _ => none
    | none =>
      if s.tail = 0 then some (s, .called t [])
      else some ({ s with rd := setRd s.rd t (some .start) }, .none)
  -- `Traverse`, hook_list.h:161-173
  | .read t =>
    match s.rd t with
    | none => none
    | some .start => some (again s t s.tail 0 maxValues [])
    | some (.loop e i n out) =>
      match s.data[i]? with
      | none => none
      | some d => if d ≠ 0 then some (again s t e (i + 1) (n - 1) (out ++ [d])) else some (again s t e (i + 1) n out)

/-- Executions, with their trace. -/
inductive Exec : St → List (Ev × Out) → St → Prop
  | nil (s : St) : Exec s [] s
  | cons {s s' s'' : St} {e : Ev} {o : Out} {tr : List (Ev × Out)} (h : step s e = some (s', o)) (ht : Exec s' tr s'') :
      Exec s ((e, o) :: tr) s''

end Verif.HookList
