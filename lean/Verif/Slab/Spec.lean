import Verif.Slab.Model
/-!
What the per-CPU slabs are supposed to be: for every CPU and class a stack of objects; plus the objects in the
hands of the threads.  Preconditions of the events and reachable states.
-/
namespace Verif.Slab

/-- A size class that exists. -/
def Valid (nc k : Nat) : Prop := 1 ≤ k ∧ k < nc

/-- An object's address: not null, low bit clear (`Push` asserts both, percpu_tcmalloc.h:789-799). -/
def GoodObj (o : Nat) : Prop := o ≠ 0 ∧ o % 2 = 0

/-- Capacities that fit a region of `lim` words, with all indices in 16 bits. -/
structure Fits (nc : Nat) (caps : Nat → Nat) (lim : Nat) : Prop where
  cap : ∀ k, Valid nc k → caps k < 65536
  room : ∀ k, Valid nc k → (walk nc caps k).1 ≤ lim
  small : ∀ k, Valid nc k → (walk nc caps k).1 < 65536
  lim : lim ≤ 65536

/-- The header of class `k` of CPU `c` in the current slabs.  Objects (and, for a drain, the capacity) that a remote
operation has handed to its caller no longer count, although it has yet to store the header. -/
def W.eff (w : W) (c k : Nat) : Hdr :=
  match w.rem c with
  | some (_, .dr3 k' _) => if k' = k then ⟨w.begins k, w.begins k⟩ else w.mem.hdr w.slabs c k
  | some (_, .sh3 k' _ _ h) => if k' = k then ⟨h.cur, (w.mem.hdr w.slabs c k).fin⟩ else w.mem.hdr w.slabs c k
  | _ => w.mem.hdr w.slabs c k

/-- The stack of class `k` of CPU `c`, bottom first. -/
def W.stack (w : W) (c k : Nat) : List Nat :=
  if w.populated c then w.mem.words w.slabs c (w.begins k) ((w.eff c k).cur - w.begins k) else []

/-- Number of objects class `k` of CPU `c` may hold at the moment (`Capacity`, percpu_tcmalloc.h:453-460). -/
def W.capacity (w : W) (c k : Nat) : Nat :=
  if w.populated c then (w.eff c k).fin - w.begins k else 0

/-- The header of class `k` of CPU `c` in the slabs that were replaced has still to be drained. -/
def Post.pending (p : Post) (c k : Nat) : Bool :=
  decide (p.oc < c ∨ (p.oc = c ∧ (p.ok < k ∨ (p.ok = k ∧ p.st ≠ .store))))

/-- The slabs that a resize has replaced, with their begins, if class `k` of CPU `c` has still to be drained. -/
def W.old (w : W) (c k : Nat) : Option (Nat × (Nat → Nat)) :=
  match w.rs with
  | some (_, r) => match r.post with
    | some p => if w.populated c ∧ p.pending c k then p.old else none
    | none => none
  | none => none

/-- Objects of class `k` of CPU `c` still in the slabs that a resize has replaced. -/
def W.left (w : W) (c k : Nat) : List Nat :=
  match w.old c k with
  | some (ob, obeg) => w.mem.words ob c (obeg k) ((w.mem.hdr ob c k).cur - obeg k)
  | none => []

/-- Capacity of class `k` of CPU `c` in those slabs. -/
def W.leftCapacity (w : W) (c k : Nat) : Nat :=
  match w.old c k with
  | some (ob, obeg) => (w.mem.hdr ob c k).fin - obeg k
  | none => 0

/-- The objects of class `k` cached for CPU `c`. -/
def W.cell (w : W) (c k : Nat) : List Nat := w.left c k ++ w.stack c k

/-- The capacity class `k` of CPU `c` has been given. -/
def W.space (w : W) (c k : Nat) : Nat := w.leftCapacity c k + w.capacity c k

/-- Objects a thread is about to push. -/
def PC.hand : PC → List (Nat × Nat)
  | .push0 k o | .push1 k o _ _ | .push2 k o _ _ _ | .push3 k o _ _ _ | .push4 k o _ _ _ => [(k, o)]
  | .pushB0 k l | .pushB1 k l _ _ | .pushB2 k l _ _ _ | .pushB3 k l _ _ _ _ _ => l.map fun o => (k, o)
  | _ => []

/-- All pairs of a CPU and a class. -/
def keys (cfg : Cfg) : List (Nat × Nat) :=
  (List.range cfg.n).flatMap fun c => (List.range (cfg.nc - 1)).map fun k => (c, k + 1)

/-- Every object, with its class: outside, in the hands of threads, in the slabs. -/
def W.everything (cfg : Cfg) (w : W) : List (Nat × Nat) :=
  w.held ++ w.thr.flatMap (fun th => th.pc.hand) ++
    (keys cfg).flatMap (fun a => (w.cell a.1 a.2).map fun o => (a.2, o))

/-- What the callers guarantee.  Objects pushed are outside; classes exist; a resize uses other memory than the
current slabs (cpu_cache.h:2425-2449), capacities that fit (cpu_cache.h:1046-1137), all locks free, and no other
operation on all CPUs in progress (background.cc:104-105); the scheduler puts one thread on a CPU. -/
def Pre (cfg : Cfg) (w : W) : Ev → Prop
  | .call i op => ∃ th, w.thr[i]? = some th ∧ th.pc = .idle ∧ th.cpu ≠ none ∧
    match op with
    | .push k o => Valid cfg.nc k ∧ GoodObj o ∧ (k, o) ∈ w.held
    | .pop k => Valid cfg.nc k
    | .pushB k l => Valid cfg.nc k ∧ l ≠ [] ∧ (∀ o ∈ l, GoodObj o) ∧
        ∀ a, (l.map fun o => (k, o)).count a ≤ w.held.count a
    | .popB k n => Valid cfg.nc k ∧ 0 < n
    | .grow k _ => Valid cfg.nc k
    | .cache => True
    | .uncache => True
    | .remote c => c < cfg.n ∧ w.rem c = none ∧ w.allFree = true
    | .resize nb ncaps lim => nb ≠ w.slabs ∧ Fits cfg.nc ncaps lim ∧ w.rs = none ∧ ∀ c, w.rem c = none
    | .release => w.rs = none ∧ ∀ c, w.rem c = none
  | .act i ch => ∃ th, w.thr[i]? = some th ∧ th.cpu ≠ none ∧
    ∀ c o, w.rem c = some (o, .ready false) → th.pc = .remote c → 2 ≤ ch.op → Valid cfg.nc ch.k
  | .schedOut i => ∃ th, w.thr[i]? = some th ∧ th.cpu ≠ none
  | .schedIn i c => c < cfg.n ∧ (∃ th, w.thr[i]? = some th ∧ th.cpu = none) ∧ ∀ th ∈ w.thr, th.cpu ≠ some c
  | .signal i => ∃ th, w.thr[i]? = some th
  | .give k o => Valid cfg.nc k ∧ GoodObj o
  | .take k o => (k, o) ∈ w.held

/-- Reachable states. -/
inductive Reach (cfg : Cfg) : W → Prop
  | init {m b caps lim threads w} : Fits cfg.nc caps lim → W.init cfg m b caps lim threads = some w → Reach cfg w
  | step {w e w' out} : Reach cfg w → Pre cfg w e → step cfg w e = some (w', out) → Reach cfg w'

/-- Thread state in which the thread is inside a restartable sequence that has loaded the region of CPU `c`. -/
def PC.inside : PC → Option (Nat × Nat)
  | .push1 _ _ b c | .push2 _ _ b c _ | .push3 _ _ b c _ | .push4 _ _ b c _ => some (b, c)
  | .pop1 _ b c | .pop2 _ b c _ | .pop3 _ b c _ _ | .pop4 _ b c _ _ => some (b, c)
  | .pushB1 _ _ b c | .pushB2 _ _ b c _ | .pushB3 _ _ b c _ _ _ => some (b, c)
  | .popB1 _ _ b c | .popB2 _ _ b c _ | .popB3 _ _ b c _ _ _ => some (b, c)
  | _ => none

/-- Class of the operation a thread is in. -/
def PC.cls : PC → Option Nat
  | .push0 k _ | .push1 k _ _ _ | .push2 k _ _ _ _ | .push3 k _ _ _ _ | .push4 k _ _ _ _ => some k
  | .pop0 k | .pop1 k _ _ | .pop2 k _ _ _ | .pop3 k _ _ _ _ | .pop4 k _ _ _ _ => some k
  | .pushB0 k _ | .pushB1 k _ _ _ | .pushB2 k _ _ _ _ | .pushB3 k _ _ _ _ _ _ => some k
  | .popB0 k _ | .popB1 k _ _ _ | .popB2 k _ _ _ _ | .popB3 k _ _ _ _ _ _ => some k
  | .grow0 k _ | .grow1 k _ _ | .grow2 k _ _ _ | .grow3 k _ _ _ _ | .grow4 k _ _ _ _ | .grow5 k _ _ _ _ => some k
  | _ => none

/-- Number of objects or units of capacity the operation a thread is in was asked for. -/
def PC.want : PC → Nat
  | .popB0 _ n | .popB1 _ n _ _ | .popB2 _ n _ _ _ | .popB3 _ n _ _ _ _ _ => n
  | .grow0 _ n | .grow1 _ n _ | .grow2 _ n _ _ | .grow3 _ n _ _ _ | .grow4 _ n _ _ _ | .grow5 _ n _ _ _ => n
  | _ => 0

/-- The same for an operation on a locked CPU. -/
def RStage.want : RStage → Nat
  | .sh1 _ n | .sh2 _ n _ _ | .sh3 _ n _ _ | .go1 _ n | .go2 _ n _ _ => n
  | _ => 0

/-- Objects and capacities of all classes of all CPUs are as before. -/
def Same (cfg : Cfg) (w w' : W) : Prop :=
  ∀ c k, c < cfg.n → Valid cfg.nc k → w'.cell c k = w.cell c k ∧ w'.space c k = w.space c k

/-- Objects and capacities are as before except for class `k` of CPU `c`. -/
def SameBut (cfg : Cfg) (w w' : W) (c k : Nat) : Prop :=
  ∀ c' k', c' < cfg.n → Valid cfg.nc k' → ¬ (c' = c ∧ k' = k) → w'.cell c' k' = w.cell c' k' ∧ w'.space c' k' = w.space c' k'

/-- What one step of a thread on CPU `c`, which was at `pc`, may do to the cached objects, the capacities and the
objects outside, given what it shows.  Stacks are written bottom first. -/
def Effect (cfg : Cfg) (w w' : W) (c : Nat) (th : Thread) : Out → Prop
  | .tau | .cached _ => Same cfg w w' ∧ w'.held = w.held
  | .pushed false => ∃ k o, th.pc.hand = [(k, o)] ∧ th.pc.cls = some k ∧ Same cfg w w' ∧ w'.held = (k, o) :: w.held ∧
      (th.ptr = .none ∨ (w.stack c k).length = w.capacity c k)
  | .pushed true => ∃ k o, th.pc.hand = [(k, o)] ∧ th.pc.cls = some k ∧ SameBut cfg w w' c k ∧ w'.held = w.held ∧
      w'.cell c k = w.cell c k ++ [o] ∧ w'.stack c k = w.stack c k ++ [o] ∧ w'.space c k = w.space c k
  | .popped none => ∃ k, th.pc.cls = some k ∧ Same cfg w w' ∧ w'.held = w.held ∧ (th.ptr = .none ∨ w.stack c k = [])
  | .popped (some o) => ∃ k, th.pc.cls = some k ∧ SameBut cfg w w' c k ∧ w'.held = (k, o) :: w.held ∧
      w.cell c k = w'.cell c k ++ [o] ∧ w.stack c k = w'.stack c k ++ [o] ∧ w'.space c k = w.space c k
  | .pushedB n => ∃ (k : Nat) (l : List Nat), th.pc.hand = l.map (fun o => (k, o)) ∧ th.pc.cls = some k ∧ SameBut cfg w w' c k ∧
      w'.held = (l.take (l.length - n)).map (fun o => (k, o)) ++ w.held ∧ w'.space c k = w.space c k ∧
      w'.cell c k = w.cell c k ++ (l.drop (l.length - n)).reverse ∧
      w'.stack c k = w.stack c k ++ (l.drop (l.length - n)).reverse ∧
      ((th.ptr = .none ∧ n = 0) ∨ n = min l.length (w.capacity c k - (w.stack c k).length))
  | .poppedB l => ∃ k, th.pc.cls = some k ∧ SameBut cfg w w' c k ∧ w'.held = l.map (fun o => (k, o)) ++ w.held ∧
      w'.space c k = w.space c k ∧ w.cell c k = w'.cell c k ++ l.reverse ∧ w.stack c k = w'.stack c k ++ l.reverse ∧
      ((th.ptr = .none ∧ l = []) ∨ l.length = min th.pc.want (w.stack c k).length)
  | .grew n => ∃ k, th.pc.cls = some k ∧ SameBut cfg w w' c k ∧ w'.held = w.held ∧ w'.cell c k = w.cell c k ∧
      w'.space c k = w.space c k + n ∧ n ≤ th.pc.want
  | .handed c' k l cap => (c' < cfg.n ∧ Valid cfg.nc k) ∧ SameBut cfg w w' c' k ∧ w'.held = l.map (fun o => (k, o)) ++ w.held ∧
      (∃ a b, w.cell c' k = a ++ l ++ b ∧ w'.cell c' k = a ++ b) ∧ w.space c' k = w'.space c' k + cap
  | .shrunk c' k n => (c' < cfg.n ∧ Valid cfg.nc k) ∧ SameBut cfg w w' c' k ∧ w'.held = w.held ∧ w'.cell c' k = w.cell c' k ∧
      w.space c' k = w'.space c' k + n ∧ ∃ i st, w.rem c' = some (i, st) ∧ n ≤ st.want
  | .grewOther c' k n => (c' < cfg.n ∧ Valid cfg.nc k) ∧ SameBut cfg w w' c' k ∧ w'.held = w.held ∧ w'.cell c' k = w.cell c' k ∧
      w'.space c' k = w.space c' k + n ∧ ∃ i st, w.rem c' = some (i, st) ∧ n ≤ st.want

end Verif.Slab
