import Verif.Signals.Model
import Verif.Guarded.Props
import Verif.Guarded.Story
/-!
# Signals: the theorems (C84)
-/
namespace Verif.Signals

/-! ## The program's own handlers -/

theorem updS_self {α : Type} (t : Sig → α) (g : Sig) (x : α) : updS t g x g = x := by simp [updS]
theorem updS_ne {α : Type} (t : Sig → α) {g g' : Sig} (x : α) (h : g' ≠ g) : updS t g x g' = t g' := by simp [updS, h]

/-- The two processes stand alike. -/
structure Alike (w : W) (t : Sig → Action) : Prop where
  slot : ∀ g, w.tab g = .prog (t g) ∨ (w.tab g = .mine ∧ window w g = false ∧ w.old g = t g) ∨
    (w.tab g = .mine ∧ window w g = true ∧ w.ret = t g)
  early : (w.stage = 0 → w.tab .segv = .prog (t .segv)) ∧ (w.stage ≤ 2 → w.tab .trap = .prog (t .trap))

theorem Alike.init (t : Sig → Action) : Alike (W.init t) t :=
  ⟨fun _ => Or.inl rfl, fun _ => rfl, fun _ => rfl⟩

theorem Alike.activate {w : W} {t : Sig → Action} (h : Alike w t) : Alike (activate w) t := by
  obtain ⟨hs, h0, h2⟩ := h
  rcases hw : w.stage with _ | _ | _ | _ | n
  · have e := h0 hw
    refine ⟨?_, ?_, ?_⟩ <;> simp only [Signals.activate, hw]
    · intro g
      cases g with
      | segv => exact Or.inr (Or.inr ⟨updS_self .., rfl, by simp [e, actionOf]⟩)
      | trap => exact Or.inl (by rw [updS_ne _ _ (by simp)]; exact h2 (by omega))
    · intro h; cases h
    · intro _; rw [updS_ne _ _ (by simp)]; exact h2 (by omega)
  · refine ⟨?_, ?_, ?_⟩ <;> simp only [Signals.activate, hw]
    · intro g
      cases g with
      | segv =>
        rcases hs .segv with h | ⟨h1, h2, h3⟩ | ⟨h1, h2, h3⟩
        · exact Or.inl h
        · simp [window, hw] at h2
        · exact Or.inr (Or.inl ⟨h1, rfl, by simp [updS, h3]⟩)
      | trap => exact Or.inl (h2 (by omega))
    · intro h; cases h
    · intro _; exact h2 (by omega)
  · have e := h2 (by omega)
    refine ⟨?_, ?_, ?_⟩ <;> simp only [Signals.activate, hw]
    · intro g
      cases g with
      | segv =>
        rcases hs .segv with h | ⟨h1, h2, h3⟩ | ⟨h1, h2, h3⟩
        · exact Or.inl (by rw [updS_ne _ _ (by simp)]; exact h)
        · exact Or.inr (Or.inl ⟨by rw [updS_ne _ _ (by simp)]; exact h1, rfl, h3⟩)
        · simp [window, hw] at h2
      | trap => exact Or.inr (Or.inr ⟨updS_self .., rfl, by simp [e, actionOf]⟩)
    · intro h; cases h
    · intro h; omega
  · refine ⟨?_, ?_, ?_⟩ <;> simp only [Signals.activate, hw]
    · intro g
      cases g with
      | segv =>
        rcases hs .segv with h | ⟨h1, h2, h3⟩ | ⟨h1, h2, h3⟩
        · exact Or.inl h
        · exact Or.inr (Or.inl ⟨h1, rfl, by rw [updS_ne _ _ (by simp)]; exact h3⟩)
        · simp [window, hw] at h2
      | trap =>
        rcases hs .trap with h | ⟨h1, h2, h3⟩ | ⟨h1, h2, h3⟩
        · exact Or.inl h
        · simp [window, hw] at h2
        · exact Or.inr (Or.inl ⟨h1, rfl, by simp [updS, h3]⟩)
    · intro h; cases h
    · intro h; omega
  · have : Signals.activate w = w := by simp only [Signals.activate, hw]
    rw [this]
    exact ⟨hs, h0, h2⟩

/-- The program's `sigaction` of `g`. -/
theorem Alike.set {w : W} {t : Sig → Action} (h : Alike w t) (g : Sig) (a : Action) :
    Alike { w with tab := updS w.tab g (.prog a) } (updS t g a) := by
  obtain ⟨hs, h0, h2⟩ := h
  have hslot : ∀ j, (w.tab j = .prog (t j)) → updS w.tab g (.prog a) j = .prog (updS t g a j) := by
    intro j hj
    by_cases e : j = g
    · simp [updS, e]
    · rw [updS_ne _ _ e, updS_ne _ _ e]; exact hj
  refine ⟨?_, fun e => hslot _ (h0 e), fun e => hslot _ (h2 e)⟩
  intro j
  by_cases e : j = g
  · exact Or.inl (by simp [updS, e])
  · simp only [updS_ne _ _ e]
    exact hs j

theorem Alike.fault {c : Guarded.Cfg} {s : Guarded.S} {w : W} {t : Sig → Action} (h : Alike w t) (f : Fault)
    (hp : w.tab f.sig = .mine → Plain (t f.sig) f ∧ window w f.sig = false) :
    (deliver c s w f).2.2 = (direct (t f.sig) f).2 ∧
      ((direct (t f.sig) f).2 ≠ .killed → Alike (deliver c s w f).1 (updS t f.sig (direct (t f.sig) f).1)) := by
  cases hw : w.tab f.sig with
  | prog a =>
    have ha : a = t f.sig := by
      rcases h.slot f.sig with e | ⟨e, _⟩ | ⟨e, _⟩
      · rw [hw] at e; injection e
      · rw [hw] at e; cases e
      · rw [hw] at e; cases e
    subst ha
    simp only [deliver, hw]
    exact ⟨trivial, fun _ => h.set f.sig _⟩
  | mine =>
    obtain ⟨⟨p1, p2, p3, p4, p5⟩, hwin⟩ := hp hw
    have hold : w.old f.sig = t f.sig := by
      rcases h.slot f.sig with e | ⟨_, _, e⟩ | ⟨_, e, _⟩
      · rw [hw] at e; cases e
      · exact e
      · rw [hwin] at e; cases e
    have hsame : (direct (t f.sig) f).1 = t f.sig := by
      simp only [direct, p1]
      split
      · rfl
      · split <;> rfl
      · split <;> rfl
    have hupd : updS t f.sig (t f.sig) = t := by
      funext j; by_cases e : j = f.sig <;> simp [updS, e]
    rw [hsame, hupd]
    simp only [deliver, hw]
    cases hfull : f.stackFull with
    | true =>
      simp only [if_true]
      have hk : (direct (t f.sig) f).2 = .killed := by
        simp only [direct]
        split
        · rfl
        · rename_i hi
          have := (p5 hi).2.1
          rw [hfull] at this; cases this
        · have := p4 hfull
          simp only [hfull, true_and, if_pos this]
      exact ⟨hk.symm, fun hne => absurd hk hne⟩
    | false =>
      simp only [Bool.false_eq_true, if_false, forward, hold]
      cases hwho : (t f.sig).who with
      | dfl =>
        have hk : (direct (t f.sig) f).2 = .killed := by simp only [direct, hwho]
        rw [hk]
        cases (t f.sig).info <;> simp
      | ign =>
        obtain ⟨q1, q2, q3⟩ := p5 hwho
        simp only [q3, Bool.false_eq_true, if_false, q1, direct, hwho]
        exact ⟨trivial, fun _ => h⟩
      | fn x =>
        have hd : (direct (t f.sig) f).2 = .ran x (t f.sig).info [f.sig.num] := by
          simp [direct, hwho, hfull, p2, p3]
        rw [hd]
        cases (t f.sig).info <;> exact ⟨rfl, fun _ => h⟩

/-- C84, in part: for every program, and every run of signals, of the program's own calls of `sigaction` and of the
allocator's installing its handler, each signal ends as it would without the allocator: the program's handler is called
once, with the same arguments, or the process ends, or the signal is ignored.

What is missing: `Fair` excludes handlers that need the alternate stack, one-shot handlers, handlers that block more
signals or do not block their own, faults the program ignores, and signals at one step of activation.  For all of
these the claim is false: `alternate_stack_lost`, `one_shot_lost`, `mask_lost`, `ignored_fault_loops`,
`activation_race`, `ignored_with_info_kills`. -/
theorem same_as_without_partial (c : Guarded.Cfg) (g : Nat → Guarded.S) (t : Sig → Action) (ops : List Op)
    (h : Fair c g (W.init t) t ops) : withHandler c g (W.init t) ops = without t ops := by
  have key : ∀ (ops : List Op) (g : Nat → Guarded.S) (w : W) (t : Sig → Action), Alike w t → Fair c g w t ops →
      withHandler c g w ops = without t ops := by
    intro ops
    induction ops with
    | nil => intros; rfl
    | cons op ops ih =>
      intro g w t ha hf
      cases op with
      | fault f =>
        simp only [Fair] at hf
        obtain ⟨h1, h2⟩ := ha.fault (c := c) (s := g 0) f hf.1
        simp only [withHandler, without, h1]
        split
        · rfl
        · rename_i hk
          rw [ih _ _ _ (h2 hk) hf.2]
      | set sg a => exact ih _ _ _ (ha.set sg a) hf
      | activate => exact ih _ _ _ ha.activate hf
  exact key ops g _ t (Alike.init t) h

/-! ### Where the claim fails -/

def s0 : Guarded.S := Guarded.S.init fun _ => 0

/-- A program with its own three-argument handler for both signals. -/
def own : Action := ⟨.fn 7, true, false, false, false, []⟩

def segfault : Fault := ⟨.segv, true, 0x1000, some 2, false, false⟩

def activation : List Op := [.activate, .activate, .activate, .activate, .activate]

/-- A handler for stack overflows on its alternate stack no longer runs: the process is killed. -/
theorem alternate_stack_lost :
    let t : Sig → Action := fun _ => { own with onStack := true }
    let ops := activation ++ [.fault { segfault with stackFull := true, altStack := true }]
    without t ops = [.ran 7 true [11]] ∧ withHandler Guarded.cfg (fun _ => s0) (W.init t) ops = [.killed] := by
  decide +kernel

/-- A one-shot handler runs at every fault: where the second would have killed the process, it goes on faulting. -/
theorem one_shot_lost :
    let t : Sig → Action := fun _ => { own with resetHand := true }
    let ops := activation ++ [.fault segfault, .fault segfault]
    without t ops = [.ran 7 true [11], .killed] ∧
      withHandler Guarded.cfg (fun _ => s0) (W.init t) ops = [.ran 7 true [11], .ran 7 true [11]] := by
  decide +kernel

/-- A handler runs without the signals blocked that it asked to have blocked. -/
theorem mask_lost :
    let t : Sig → Action := fun _ => { own with mask := [15] }
    let ops := activation ++ [.fault segfault]
    without t ops = [.ran 7 true [11, 15]] ∧
      withHandler Guarded.cfg (fun _ => s0) (W.init t) ops = [.ran 7 true [11]] := by
  decide +kernel

/-- A program that ignores `SIGSEGV` and faults is killed; with the handler it faults for ever. -/
theorem ignored_fault_loops :
    let t : Sig → Action := fun _ => { own with who := .ign, info := false }
    let ops := activation ++ [.fault segfault]
    without t ops = [.killed] ∧ withHandler Guarded.cfg (fun _ => s0) (W.init t) ops = [.again] := by
  decide +kernel

/-- A program that ignores `SIGSEGV` with `SA_SIGINFO` set is killed when someone sends it one. -/
theorem ignored_with_info_kills :
    let t : Sig → Action := fun _ => { own with who := .ign }
    let ops := activation ++ [.fault { segfault with forced := false }]
    without t ops = [.ignored] ∧ withHandler Guarded.cfg (fun _ => s0) (W.init t) ops = [.killed] := by
  decide +kernel

/-- A fault in another thread just as the handler is being installed kills the process, though the program has a handler
for it. -/
theorem activation_race :
    let t : Sig → Action := fun _ => own
    let ops := [.activate, .fault segfault]
    without t ops = [.ran 7 true [11]] ∧ withHandler Guarded.cfg (fun _ => s0) (W.init t) ops = [.killed] := by
  decide +kernel

/-- The hypotheses are met: faults before, during and after activation, and a handler changed on the way. -/
def usual : List Op :=
  [.fault segfault, .activate, .activate, .fault segfault, .activate, .activate,
   .fault { segfault with sig := .trap }, .set .segv { own with who := .fn 8, info := false }, .fault segfault,
   .fault { segfault with sig := .trap, forced := false }]

theorem usual_fair : Fair Guarded.cfg (fun _ => s0) (W.init fun _ => own) (fun _ => own) usual := by
  simp [Fair, usual, deliver, W.init, segfault, activate, updS, forward, zeroAction, own, direct, Plain, window,
    actionOf, Sig.num]

example : withHandler Guarded.cfg (fun _ => s0) (W.init fun _ => own) usual =
    [.ran 7 true [11], .ran 7 true [11], .ran 7 true [5], .ran 8 false [11], .ran 7 true [5]] := by
  rw [same_as_without_partial _ _ _ _ usual_fair]; decide +kernel

/-! ## The report -/

/-- The handler is installed, and a fault finds room for it. -/
def Handled (w : W) (f : Fault) : Prop := w.tab .segv = .mine ∧ f.sig = .segv ∧ f.stackFull = false

variable {c : Guarded.Cfg} {s : Guarded.S} {L : List Guarded.Obj}

/-- What a handled fault at an address of the pool reports. -/
theorem deliver_report {w : W} {f : Fault} (h : Handled w f) (hm : c.mine f.addr = true) :
    (deliver c s w f).2.1 = (Guarded.report c s f.addr).bind fun r => match r.2 with
      | .unknown => none
      | .useAfterFree => some ⟨r.1, "use-after-free", writeFlag f.err, true⟩
      | .underflow => some ⟨r.1, "buffer-underflow", writeFlag f.err, false⟩
      | .overflow => some ⟨r.1, "buffer-overflow", writeFlag f.err, false⟩
      | .doubleFree => some ⟨r.1, "double-free", none, true⟩
      | .overflowOnDealloc => some ⟨r.1, "buffer-overflow-detected-at-free", none, false⟩ := by
  obtain ⟨h1, h2, h3⟩ := h
  have ht : w.tab f.sig = .mine := by rw [h2]; exact h1
  have e : (deliver c s w f).2.1 = segvHandler c s f := by
    simp only [deliver, ht, h3, Bool.false_eq_true, if_false]
  rw [e]
  simp only [segvHandler, h2, hm, ne_eq, not_true, Bool.true_eq_false, if_false]
  cases hr : Guarded.report c s f.addr with
  | none => simp
  | some r =>
    obtain ⟨slot, e⟩ := r
    cases e <;> simp

/-- C84: in every reachable state, a fault just outside a live guarded object is reported as an underflow or overflow of
that object, as a read or a write as the processor says, before the program's handler is called. -/
theorem bounds_reported (h : c.OK) (hr : Guarded.Reach c s L) {o : Guarded.Obj} (ho : o ∈ L) {w : W} {f : Fault}
    (hf : Handled w f) (hlo : c.page o.slot ≤ f.addr + c.ps / 2) (hhi : f.addr < c.page o.slot + c.ps + c.ps / 2) :
    (f.addr < o.ptr → (deliver c s w f).2.1 = some ⟨o.slot, "buffer-underflow", writeFlag f.err, false⟩) ∧
    (o.ptr + o.size ≤ f.addr → (deliver c s w f).2.1 = some ⟨o.slot, "buffer-overflow", writeFlag f.err, false⟩) := by
  have hm := Guarded.near_mine h ((hr.inv h).live o ho).1.slot hlo hhi
  obtain ⟨h1, h2⟩ := Guarded.report_live h hr ho hlo hhi
  constructor
  · intro hx; rw [deliver_report hf hm, h1 hx]; rfl
  · intro hx; rw [deliver_report hf hm, h2 hx]; rfl

/-- C84: an access to an object that has been freed, and whose slot no one has got since, faults and is reported as a use
after free. -/
theorem use_after_free_handled (h : c.OK) (hr : Guarded.Reach c s L) {o : Guarded.Obj} (ho : o ∈ L) {s' : Guarded.S}
    {L' : List Guarded.Obj} (hR : Guarded.Run c s L s' L') (hno : o.slot ∉ L'.map Guarded.Obj.slot)
    (hnf : o.slot ∉ s'.frees.map Prod.fst) {w : W} {f : Fault} (hf : Handled w f) (hq : c.On o.slot f.addr)
    (b : Nat) :
    Guarded.store c s' f.addr b = (s', .fault) ∧
      (deliver c s' w f).2.1 = some ⟨o.slot, "use-after-free", writeFlag f.err, true⟩ := by
  obtain ⟨h1, h2⟩ := Guarded.use_after_free_reported h hr ho hR hno hnf hq b
  have hm := Guarded.mine_on h ((hr.inv h).live o ho).1.slot hq
  exact ⟨h1, by rw [deliver_report hf hm, h2]; rfl⟩

/-- C84: whatever is reported, the program's own handler is then called, with the arguments it asked for. -/
theorem reported_then_forwarded {w : W} {f : Fault} (hf : Handled w f) {k : Nat} (hk : (w.old .segv).who = .fn k) :
    (deliver c s w f).2.2 = .ran k (w.old .segv).info [11] ∧ (deliver c s w f).1 = w := by
  obtain ⟨h1, h2, h3⟩ := hf
  have ht : w.tab f.sig = .mine := by rw [h2]; exact h1
  have e : (deliver c s w f).1 = (forward w f).1 ∧ (deliver c s w f).2.2 = (forward w f).2 := by
    simp only [deliver, ht, h3, Bool.false_eq_true, if_false]
    exact ⟨trivial, trivial⟩
  rw [e.1, e.2]
  simp only [forward, h2, hk, Sig.num]
  cases (w.old .segv).info <;> exact ⟨rfl, rfl⟩

/-- C84: nothing is reported for a fault outside the pool, for another signal, or where the program's own handler is the
one installed. -/
theorem no_false_report {w : W} {f : Fault} (h : c.mine f.addr = false ∨ f.sig ≠ .segv ∨ w.tab f.sig ≠ .mine) :
    (deliver c s w f).2.1 = none := by
  cases hw : w.tab f.sig with
  | prog a => simp [deliver, hw]
  | mine =>
    simp only [deliver, hw]
    split
    · rfl
    · rcases h with h | h | h
      · simp only [segvHandler, h, if_true]; split <;> rfl
      · simp only [segvHandler, if_pos h]
      · exact absurd hw h

/-- The error code's second bit says whether it was a write. -/
theorem write_flag (v : Nat) : writeFlag (some v) = some (decide (v / 2 % 2 = 1)) := by
  have h : v &&& (1 <<< 1) = if v.testBit 1 then 2 else 0 := by
    apply Nat.eq_of_testBit_eq
    intro i
    rw [Nat.testBit_and, show (1 <<< 1 : Nat) = 2 ^ 1 from rfl, Nat.testBit_two_pow]
    by_cases e : 1 = i
    · subst e
      cases v.testBit 1
      · rfl
      · decide
    · cases v.testBit 1
      · simp [e]
      · simp only [e, decide_false, Bool.and_false, if_true]
        rw [show (2 : Nat) = 2 ^ 1 from rfl, Nat.testBit_two_pow]
        simp [e]
  have hb : v.testBit 1 = decide (v / 2 % 2 = 1) := by rw [Nat.testBit_eq_decide_div_mod_eq]
  simp only [writeFlag, h]
  rw [hb]
  by_cases e : v / 2 % 2 = 1 <;> simp [e]

/-- The hypotheses are met: the handler is installed, and a write one byte before the object in slot 1 faults. -/
def installed : W := ⟨fun _ => .mine, fun _ => own, own, 4⟩

example : (deliver Guarded.cfg Guarded.mid.1 installed { segfault with addr := 0x12fff }).2 =
    (some ⟨1, "buffer-underflow", some true, false⟩, .ran 7 true [11]) := by decide +kernel

example : (deliver Guarded.cfg Guarded.late.1 installed { segfault with addr := 0x15fc0, err := some 4 }).2 =
    (some ⟨2, "use-after-free", some false, true⟩, .ran 7 true [11]) := by decide +kernel

end Verif.Signals
