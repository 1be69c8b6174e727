import Verif.CpuCache.Props
/-! The hypotheses of the theorems about the per-CPU caches are met: stories. -/
namespace Verif.CpuCache
open Slab (Valid GoodObj validB goodB fitsB fitsB_ok)

variable {cfg : Cfg} {limit : Nat}

def usedB (cfg : Cfg) (k : Nat) : Bool :=
  decide ((1 ≤ k ∧ k < cfg.slab.nc) ∧ 0 < cfg.size k ∧ 1 ≤ cfg.batch k ∧ cfg.batch k ≤ kMaxObjectsToMove)

def runs (w : W) (i : Nat) : Bool := match w.s.thr[i]? with | some t => t.cpu.isSome | none => false
def isIdle (w : W) (i : Nat) : Bool := decide (w.th[i]? = some .idle)

/-- An executable check of the precondition. -/
def preB (cfg : Cfg) (w : W) : Ev → Bool
  | .malloc i k => isIdle w i && usedB cfg k && runs w i
  | .free i k o => isIdle w i && w.user.contains (k, o) && runs w i
  | .uncache i => isIdle w i && runs w i
  | .drain i c => isIdle w i && decide (c < cfg.slab.n)
  | .classes i c => isIdle w i && decide (c < cfg.slab.n)
  | .steal i dst _ => isIdle w i && decide (dst < cfg.slab.n) && w.th.all fun st => !st.isSteal
  | .resize i nb ncaps lim => isIdle w i && Slab.preB cfg.slab w.s (.call i (.resize nb ncaps lim))
  | .release i => isIdle w i && Slab.preB cfg.slab w.s (.call i .release)
  | .act i ch => runs w i &&
    match w.th[i]? with
    | some st => st.isAll || ((decide (ch.s.op < 2) || validB cfg.slab.nc ch.s.k) && (decide (ch.s.op < 3) || usedB cfg ch.s.k))
    | none => false
  | .fetched i l => l.all goodB &&
    match w.th[i]? with
    | some (.direct _) => decide (l.length ≤ 1)
    | some (.fetch r) => decide (l.length ≤ min kMaxObjectsToMove (r.target - r.total))
    | _ => false
  | .schedOut i => Slab.preB cfg.slab w.s (.schedOut i)
  | .schedIn i c => Slab.preB cfg.slab w.s (.schedIn i c)
  | .signal i => Slab.preB cfg.slab w.s (.signal i)

theorem usedB_ok {k : Nat} (h : usedB cfg k = true) : cfg.Used k := by
  unfold usedB at h; rw [decide_eq_true_eq] at h; exact h

theorem runs_ok {w : W} {i : Nat} (h : runs w i = true) : ∃ t, w.s.thr[i]? = some t ∧ t.cpu ≠ none := by
  unfold runs at h
  split at h
  · rename_i t e; exact ⟨t, e, fun e' => by rw [e'] at h; cases h⟩
  · cases h

theorem isIdle_ok {w : W} {i : Nat} (h : isIdle w i = true) : w.th[i]? = some .idle := by
  unfold isIdle at h; rw [decide_eq_true_eq] at h; exact h

theorem preB_ok {w : W} (k : K cfg limit w) {e : Ev} (h : preB cfg w e = true) : Pre cfg w e := by
  have hS := k.slab.K
  cases e with
  | malloc i x =>
    simp only [preB, Bool.and_eq_true] at h
    exact ⟨isIdle_ok h.1.1, usedB_ok h.1.2, runs_ok h.2⟩
  | free i x o =>
    simp only [preB, Bool.and_eq_true, List.contains_iff_mem] at h
    exact ⟨isIdle_ok h.1.1, h.1.2, runs_ok h.2⟩
  | uncache i =>
    simp only [preB, Bool.and_eq_true] at h
    exact ⟨isIdle_ok h.1, runs_ok h.2⟩
  | drain i c =>
    simp only [preB, Bool.and_eq_true, decide_eq_true_eq] at h
    exact ⟨isIdle_ok h.1, h.2⟩
  | classes i c =>
    simp only [preB, Bool.and_eq_true, decide_eq_true_eq] at h
    exact ⟨isIdle_ok h.1, h.2⟩
  | steal i dst b =>
    simp only [preB, Bool.and_eq_true, decide_eq_true_eq, List.all_eq_true, Bool.not_eq_true'] at h
    exact ⟨isIdle_ok h.1.1, h.1.2, h.2⟩
  | resize i nb ncaps lim =>
    simp only [preB, Bool.and_eq_true] at h
    exact ⟨isIdle_ok h.1, Slab.preB_ok hS h.2⟩
  | release i =>
    simp only [preB, Bool.and_eq_true] at h
    exact ⟨isIdle_ok h.1, Slab.preB_ok hS h.2⟩
  | act i ch =>
    simp only [preB, Bool.and_eq_true] at h
    obtain ⟨h1, h2⟩ := h
    split at h2
    · rename_i st e
      refine ⟨runs_ok h1, st, e, fun ha => ?_⟩
      rw [ha] at h2
      simp only [Bool.false_or, Bool.and_eq_true, Bool.or_eq_true, decide_eq_true_eq] at h2
      constructor
      · intro h4
        rcases h2.1 with h3 | h3
        · omega
        · simpa [validB, Valid] using h3
      · intro h4
        rcases h2.2 with h3 | h3
        · omega
        · exact usedB_ok h3
    · cases h2
  | fetched i l =>
    simp only [preB, Bool.and_eq_true, List.all_eq_true] at h
    refine ⟨fun o ho => by simpa [goodB, GoodObj] using h.1 o ho, ?_⟩
    have h2 := h.2
    split at h2
    · rename_i x e; exact Or.inl ⟨x, e, by simpa using h2⟩
    · rename_i r e; exact Or.inr ⟨r, e, of_decide_eq_true h2⟩
    · cases h2
  | schedOut i => exact Slab.preB_ok (e := .schedOut i) hS h
  | schedIn i c => exact Slab.preB_ok (e := .schedIn i c) hS h
  | signal i => exact Slab.preB_ok (e := .signal i) hS h

def runAll (cfg : Cfg) : W → List Ev → Option (W × List Out)
  | w, [] => some (w, [])
  | w, e :: es =>
    if preB cfg w e then
      (step cfg w e).bind fun (w', o) => (runAll cfg w' es).map fun (z, os) => (z, o :: os)
    else none

theorem runAll_reach (hcfg : cfg.OK limit) : ∀ (es : List Ev) (x y : W) (os : List Out), Reach cfg limit x →
    runAll cfg x es = some (y, os) → Reach cfg limit y
  | [], x, y, os, h, e => by simp only [runAll, Option.some.injEq, Prod.mk.injEq] at e; rw [← e.1]; exact h
  | ev :: es, x, y, os, h, e => by
    unfold runAll at e
    split at e
    · rename_i hp
      rw [Option.bind_eq_some_iff] at e
      obtain ⟨⟨x', o⟩, h1, h2⟩ := e
      rw [Option.map_eq_some_iff] at h2
      obtain ⟨⟨z, os'⟩, h3, h4⟩ := h2
      simp only [Prod.mk.injEq] at h4
      rw [← h4.1]
      exact runAll_reach hcfg es x' z os' (Reach.step (e := ev) h (preB_ok (h.K hcfg) hp) h1) h3
    · cases e

namespace Story

/-- Two CPUs, classes 1 and 2 of 8 and 16 bytes, batches of 2 and 1, a budget of 64 bytes each. -/
def cfg0 : Cfg := { slab := ⟨2, 3, false⟩, size := fun k => 8 * k, batch := fun k => if k = 1 then 2 else 1, bypass := fun _ => false }
def caps0 : Nat → Nat := fun k => if k = 1 then 4 else 1
def mem0 : Slab.Mem := ⟨fun _ _ _ => ⟨9, 4⟩, fun _ _ i => 7 * i⟩

theorem ok0 : cfg0.OK 64 := ⟨by decide, by decide⟩
theorem fits0 : Slab.Fits cfg0.slab.nc caps0 16 := fitsB_ok (by decide +kernel)

theorem init_some : (W.init cfg0 mem0 0 caps0 16 2 64).isSome = true := by decide +kernel
def start : W := (W.init cfg0 mem0 0 caps0 16 2 64).get init_some
theorem start_reach : Reach cfg0 64 start := Reach.init (m := mem0) (b := 0) (threads := 2) fits0 (Option.some_get init_some).symm

def go (op : Nat) (k := 1) (len := 1) : Slab.Ch := ⟨op, k, len, fun c => c == 0, fun _ _ => true, fun _ i => i % 2 == 0⟩
instance : Inhabited St := ⟨.idle⟩
def ch (op : Nat) (k := 1) (succ := 0) (cap := 1) : Ch := { s := go op k, succ := succ, cap := cap, mx := 4, byBatch := true }
/-- `n` steps of thread `i`. -/
def acts (i n : Nat) (op := 0) (k := 1) (succ := 0) (cap := 1) : List Ev := List.replicate n (.act i (ch op k succ cap))

/-- Thread 0 on CPU 0 allocates: the slab is populated, class 1 grows by two, the layer below gives four objects. -/
def miss : List Ev := [.schedIn 0 0, .malloc 0 1] ++ acts 0 30 0 1 1 ++ acts 0 1 0 1 1 6 ++ [.fetched 0 [100, 102, 104, 106]]
/-- The allocation ends; freeing the object overflows the class. -/
def free : List Ev := acts 0 9 0 1 1 4 ++ [.free 0 1 106] ++ acts 0 14 0 1 0 4
/-- Thread 1 steals 56 bytes from CPU 0 for CPU 1: 48 unallocated, 8 by shrinking class 1. -/
def steal : List Ev := [.schedIn 1 1, .steal 1 1 56] ++ acts 1 1 1 0 ++ acts 1 2 ++ acts 1 9 2 1
/-- Thread 1 moves the slabs elsewhere; what was cached goes to the layer below, what was given to the classes back
to the budget. -/
def resize : List Ev := acts 1 2 ++ [.resize 1 1 (fun k => if k = 2 then 3 else 1) 16] ++ acts 1 2 ++ acts 1 2 1 ++ acts 1 1 2 ++
  acts 1 2 3 0 ++ acts 1 1 4 ++ acts 1 2

/-- Thread 1 drains CPU 0 and releases its metadata while thread 0 has bytes of its budget in hand. -/
def clash : List Ev := [.schedIn 0 0, .malloc 0 1] ++ acts 0 26 0 1 1 ++ [.schedIn 1 1, .drain 1 0] ++ acts 1 13 1 ++ [.release 1] ++ acts 1 2 ++ acts 1 1 2 ++ acts 1 2 3 0

def results (es : List Ev) : Option (List Out) := (runAll cfg0 start es).map fun x => x.2.filter (· != .tau)
def counters (w : W) : List Nat := [w.avail 0, w.cap 0, w.avail 1, w.cap 1]

set_option maxRecDepth 10000 in
/-- Everything at once: 106 is returned, 102 and 104 are kept, 100 given back; freeing 106 sends 106 and 102; the
resize sends the last one. -/
example : results (miss ++ free ++ steal ++ resize ++ acts 1 11) = some
    [.toBacking 1 [100], .allocated 1 (some 106) (some ⟨1, 4, 4, some 106, [100, 102, 104, 106], [102, 104], [100]⟩),
      .toBacking 1 [106, 102], .freed 1 106 (some ⟨1, 106, 2, 2, [], [102], [106, 102]⟩), .finished, .toBacking 1 [104],
      .finished] := by decide +kernel

/-- After the miss, about to return. -/
def got : List Ev := miss ++ acts 0 8 0 1 1 4
theorem got_some : (runAll cfg0 start got).isSome = true := by decide +kernel
def gotW : W := ((runAll cfg0 start got).get got_some).1
theorem got_reach : Reach cfg0 64 gotW := by
  have h := (Option.some_get got_some).symm
  exact runAll_reach ok0 _ _ _ _ start_reach h

/-- `refill_exact`, `budget_exact`, `cached_le`, `conserved`, `user_exact`, `step_defined`. -/
example : Reach cfg0 64 gotW ∧ Pre cfg0 gotW (.act 0 (ch 0)) ∧
    ((step cfg0 gotW (.act 0 (ch 0))).map fun x => (x.2, x.1.user)) =
      some (.allocated 1 (some 106) (some ⟨1, 4, 4, some 106, [100, 102, 104, 106], [102, 104], [100]⟩), [(1, 106)]) ∧
    counters gotW = [48, 64, 64, 64] ∧ bytes cfg0 gotW.s 0 = 16 ∧ cachedBytes cfg0 gotW.s 0 = 16 ∧
    gotW.s.everything cfg0.slab = [(1, 106), (1, 104), (1, 102)] := by
  refine ⟨got_reach, preB_ok (got_reach.K ok0) (by decide +kernel), ?_, ?_, ?_, ?_, ?_⟩ <;> decide +kernel

/-- `refill_recorded`: the step before stored [102, 104] and the one after it gives 100 back. -/
def storing : List Ev := miss ++ acts 0 6 0 1 1 4
example : ((runAll cfg0 start storing).map fun x => (x.1.th[0]?.map fun st => (st.stored, st.returned), x.1.s.cell 0 1)) = some (some ([], []), []) ∧
    ((runAll cfg0 start (storing ++ acts 0 1)).map fun x => (x.1.th[0]?.map fun st => (st.stored, st.returned), x.1.s.cell 0 1)) =
      some (some ([102, 104], []), [104, 102]) ∧
    ((runAll cfg0 start (storing ++ acts 0 2)).map fun x => (x.1.th[0]?.map fun st => (st.stored, st.returned), x.2.getLast?)) =
      some (some ([102, 104], [100]), some (.toBacking 1 [100])) := by
  refine ⟨?_, ?_, ?_⟩ <;> decide +kernel

/-- `overflow_exact`, `overflow_recorded`: the free has sent 106 and 102. -/
def sent : List Ev := miss ++ acts 0 9 0 1 1 4 ++ [.free 0 1 106] ++ acts 0 13 0 1 0 4
theorem sent_some : (runAll cfg0 start sent).isSome = true := by decide +kernel
def sentW : W := ((runAll cfg0 start sent).get sent_some).1
theorem sent_reach : Reach cfg0 64 sentW := by
  have h := (Option.some_get sent_some).symm
  exact runAll_reach ok0 _ _ _ _ start_reach h
example : Reach cfg0 64 sentW ∧ sentW.th[0]? = some (.fdone ⟨1, 106, 2, 2, [], [102], [106, 102]⟩) ∧
    ((step cfg0 sentW (.act 0 (ch 0))).map fun x => x.2) = some (.freed 1 106 (some ⟨1, 106, 2, 2, [], [102], [106, 102]⟩)) :=
  ⟨sent_reach, by decide +kernel, by decide +kernel⟩

/-- `budgets_conserved`, `budget_exact`, `cached_bounded`: in the middle of the steal, with 56 bytes on the way and
already in the counter of CPU 1. -/
def last : List Ev := miss ++ free ++ steal ++ acts 1 1
set_option maxRecDepth 10000 in
theorem last_some : (runAll cfg0 start last).isSome = true := by decide +kernel
def lastW : W := ((runAll cfg0 start last).get last_some).1
set_option maxRecDepth 10000 in
theorem last_reach : Reach cfg0 64 lastW := by
  have h := (Option.some_get last_some).symm
  exact runAll_reach ok0 _ _ _ _ start_reach h
set_option maxRecDepth 10000 in
example : Reach cfg0 64 lastW ∧ counters lastW = [0, 8, 120, 64] ∧ lastW.moving = 56 ∧ lastW.owed 1 = 56 ∧ bytes cfg0 lastW.s 0 = 8 :=
  ⟨last_reach, by decide +kernel, by decide +kernel, by decide +kernel, by decide +kernel⟩

/-- `budget_at_rest`: after the resize. -/
def rest : List Ev := miss ++ free ++ steal ++ resize ++ acts 1 11
set_option maxRecDepth 10000 in
theorem rest_some : (runAll cfg0 start rest).isSome = true := by decide +kernel
def restW : W := ((runAll cfg0 start rest).get rest_some).1
set_option maxRecDepth 10000 in
theorem rest_reach : Reach cfg0 64 restW := by
  have h := (Option.some_get rest_some).symm
  exact runAll_reach ok0 _ _ _ _ start_reach h
set_option maxRecDepth 10000 in
example : Reach cfg0 64 restW ∧ (∀ st ∈ restW.th, st = .idle) ∧ counters restW = [8, 8, 120, 120] :=
  ⟨rest_reach, by decide +kernel, by decide +kernel⟩

set_option maxRecDepth 10000 in
theorem clash_some : (runAll cfg0 start clash).isSome = true := by decide +kernel
def clashW : W := ((runAll cfg0 start clash).get clash_some).1
set_option maxRecDepth 10000 in
theorem clash_reach : Reach cfg0 64 clashW := by
  have h := (Option.some_get clash_some).symm
  exact runAll_reach ok0 _ _ _ _ start_reach h

/-- `release_check_partial`: the same with thread 0 not yet in `Grow`; CPU 0 is unpopulated. -/
def quiet : List Ev := [.schedIn 0 0, .malloc 0 1] ++ acts 0 17 0 1 1 ++ [.schedIn 1 1, .drain 1 0] ++ acts 1 13 1 ++ [.release 1] ++ acts 1 2 ++ acts 1 1 2 ++ acts 1 2 3 0
set_option maxRecDepth 10000 in
example : ((runAll cfg0 start quiet).map fun x => (unpopulates cfg0 x.1 (go 4), (List.range 2).map fun c => (x.1.purse c, x.1.owed c))) =
      some (true, [(0, 0), (0, 0)]) ∧
    ((runAll cfg0 start quiet).map fun x => (x.1.s.populated 0, (step cfg0 x.1 (.act 1 (ch 4))).map fun y => y.1.s.populated 0)) = some (true, some false) := by
  constructor <;> decide +kernel
end Story

set_option maxRecDepth 10000 in
/-- **C45 is false of the code.** There is a reachable state in which an event that callers, background thread and
scheduler may cause is not defined: a thread is in `Grow` with 16 bytes of the budget of CPU 0, taken from the counter;
the background thread has drained CPU 0 and now releases its metadata; the counter is not equal to the budget, and
`TC_CHECK_EQ(available, capacity)` fails. -/
theorem release_check_fails : ∃ (cfg : Cfg) (limit : Nat) (w : W) (e : Ev), cfg.OK limit ∧ Reach cfg limit w ∧ Pre cfg w e ∧ step cfg w e = none :=
  ⟨Story.cfg0, 64, Story.clashW, .act 1 (Story.ch 4), Story.ok0, Story.clash_reach,
    preB_ok (Story.clash_reach.K Story.ok0) (by decide +kernel), by
      have : (step Story.cfg0 Story.clashW (.act 1 (Story.ch 4))).isNone = true := by decide +kernel
      exact Option.isNone_iff_eq_none.mp this⟩

end Verif.CpuCache
