import Verif.Lifetime.Model
/-! What a profile must say, from the history of the sampled allocations. -/
namespace Verif.Lifetime

abbrev Trace := List Ev

def Ev.mallocs (h : Nat) : Ev → Bool
  | .malloc h' _ _ => h' == h
  | _ => false
def Ev.frees (h : Nat) : Ev → Bool
  | .free h' _ _ _ => h' == h
  | _ => false
def Ev.adds (p : Nat) : Ev → Bool
  | .add p' _ _ => p' == p
  | _ => false
def Ev.seeds (p : Nat) : Ev → Bool
  | .seed p' _ _ => p' == p
  | _ => false
def Ev.stops (p : Nat) : Ev → Bool
  | .stop p' _ => p' == p
  | _ => false

/-- What `Iterate` of the recorder is known to report (C57): no sample twice; every sample registered before and not unregistered until it
returns; only samples registered, and not unregistered before it began; each with what was registered. -/
def Seeded (tr0 tr : Trace) (l : List (Nat × Info)) : Prop :=
  (l.map (·.1)).Nodup ∧ (∀ h i w, .register h ∈ tr0 → .unregister h ∉ tr → .malloc h i w ∈ tr → (h, i) ∈ l) ∧
    ∀ x ∈ l, .register x.1 ∈ tr ∧ .unregister x.1 ∉ tr0 ∧ ∃ w, .malloc x.1 x.2 w ∈ tr

/-- The order of the sampled path: handles are new (allocation_sampling.h:166-169); `Register` after `ReportMalloc`; `Unregister` before `ReportFree`; a profile is
started once and stopped once. -/
def Pre (tr : Trace) : Ev → Prop
  | .malloc h _ _ => ∀ e ∈ tr, e.mallocs h = false
  | .register h => (∃ e ∈ tr, e.mallocs h = true) ∧ .register h ∉ tr
  | .unregister h => .register h ∈ tr ∧ .unregister h ∉ tr
  | .free h _ _ _ => .unregister h ∈ tr ∧ ∀ e ∈ tr, e.frees h = false
  | .add p _ _ => ∀ e ∈ tr, e.adds p = false
  | .seed p l _ => ∃ tr0 m k tr1, tr = tr0 ++ .add p m k :: tr1 ∧ Seeded tr0 tr l
  | .stop p _ => (∃ e ∈ tr, e.seeds p = true) ∧ ∀ e ∈ tr, e.stops p = false

inductive Run : Trace → St → Prop
  | init : Run [] init
  | step {tr : Trace} {s s' : St} {e : Ev} {o : Out} (h : Run tr s) (hp : Pre tr e) (hs : step s e = some (s', o)) : Run (tr ++ [e]) s'

/-- The allocations a profile started with seed `l`, by a thread at `w`, has seen after the events `tr`. -/
def known (l : List (Nat × Info)) (w : Loc) (tr : Trace) : List Rec :=
  l.map (fun x => ⟨x.1, x.2, w⟩) ++ tr.filterMap fun e => match e with
    | .malloc h i w => some ⟨h, i, w⟩
    | _ => none

def freed (tr : Trace) (h : Nat) : Bool := tr.any (·.frees h)

/-- In place of an allocation that was not seen: nothing is known of it. -/
def unknown (h : Nat) : Rec := { handle := h, info := { stack := [], attrs := 0, size := 0, time := 0 }, loc := { cpu := -1, vcpu := -1, l3 := -1, numa := -1, thread := 0 } }

/-- In place of a deallocation, for an allocation live at `T`: no stack, no place. -/
def notYet (a : Rec) (T : Int) : Rec :=
  { handle := a.handle, info := { stack := [], attrs := a.info.attrs, size := a.info.size, time := T },
    loc := { cpu := -1, vcpu := -1, l3 := -1, numa := -1, thread := 0 } }

/-- The deallocations it has seen, each with its allocation (`unknown`, if that was before). -/
def done (l : List (Nat × Info)) (w : Loc) (tr : Trace) : List (Rec × Rec) :=
  tr.filterMap fun e => match e with
    | .free h stack time w' =>
      let a := ((known l w tr).find? fun r => r.handle == h).getD (unknown h)
      some (a, { handle := h, info := { stack := stack, attrs := a.info.attrs, size := a.info.size, time := time }, loc := w' })
    | _ => none

/-- The allocations it has seen that were not freed. -/
def open_ (l : List (Nat × Info)) (w : Loc) (tr : Trace) : List Rec := (known l w tr).filter fun r => !freed tr r.handle

/-- Same CPU, virtual CPU, cache, node, thread: the case of a pair. -/
def caseOf (a d : Loc) : Nat :=
  ((if a.cpu = d.cpu then 16 else 0) + (if a.vcpu = d.vcpu then 8 else 0) + (if a.l3 = d.l3 then 4 else 0) + (if a.numa = d.numa then 2 else 0) +
    (if a.thread = d.thread then 1 else 0)) * 3 + 2

/-- What entries are told apart by, besides the case. -/
def kind (x : Rec × Rec) : Key × Key :=
  ((x.1.info.stack, x.1.info.attrs, x.1.info.size), (x.2.info.stack, x.2.info.attrs, x.2.info.size))

/-- The lifetimes that count for the stacks `k` and the case `i`: an allocation without a stack is not counted. -/
def lives (log : List (Rec × Rec)) (k : Key × Key) (i : Nat) : List Int :=
  log.filterMap fun x => if x.1.info.stack.length ≠ 0 ∧ kind x = k ∧ caseOf x.1.loc x.2.loc = i then some (x.2.info.time - x.1.info.time) else none

def sum : List Int → Rat
  | [] => 0
  | x :: xs => x + sum xs

/-- The sum of the squared deviations from `m`. -/
def devs (m : Rat) : List Int → Rat
  | [] => 0
  | x :: xs => (x - m) * (x - m) + devs m xs

/-- Count, extremes and mean. -/
structure Stats (c : Cell) (xs : List Int) : Prop where
  count : c.count = xs.length
  lo : (∀ m, c.min = some m ↔ m ∈ xs ∧ ∀ x ∈ xs, m ≤ x)
  hi : (∀ x ∈ xs, x ≤ c.max) ∧ 0 ≤ c.max ∧ (c.max = 0 ∨ c.max ∈ xs)
  mean : c.mean * c.count = sum xs

/-- What the table says for `k` and case `i`. -/
def Table.cell (t : Table) (k : Key × Key) (i : Nat) : Cell := ((t.table.lookup k).getD fun _ => {}) i

/-- What an event trace shows of a pair: the allocation, if it has a stack; the deallocation, if it has one. -/
def shown (x : Rec × Rec) : List Rec :=
  (if x.1.info.stack.length > 0 then [x.1] else []) ++ if x.2.info.stack.length > 0 then [{ x.2 with info := { x.2.info with size := 0 } }] else []

/-- All a profile stopped at `T` has to account for: the deallocations, and the allocations not freed. -/
def log (l : List (Nat × Info)) (w : Loc) (tr : Trace) (T : Int) : List (Rec × Rec) :=
  done l w tr ++ (open_ l w tr).map fun a => (a, notYet a T)

end Verif.Lifetime
