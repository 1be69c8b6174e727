import Verif.Slab.Drained
/-!
Properties of the per-CPU slabs (C27): for every number of CPUs, threads and classes, all capacities, every memory
content at the start, and every schedule: preemption, migration, signals, and the steps of `FenceCpu`/`FenceAllCpus`
at any instruction of the restartable sequences; drains, capacity stealing, resizing and release of metadata at any
moment.
-/
namespace Verif.Slab

variable {cfg : Cfg}

/-- **C27.** Nothing goes wrong: every step is defined.  No check fails, no index wraps, no word outside a
class's range is taken for an object, no object is null, `Pop` never reads below the first marker. -/
theorem step_defined (w : W) (h : Reach cfg w) (e : Ev) (hp : Pre cfg w e) : ∃ w' out, step cfg w e = some (w', out) := by
  obtain ⟨w', out, e1, _⟩ := step_K h.K hp
  exact ⟨w', out, e1⟩

/-- **C27.** No class ever holds more than its capacity, nor its capacity more than the maximum, and what it holds
are objects (not null, low bit clear), on every CPU, at every moment. -/
theorem bounded (w : W) (h : Reach cfg w) (c k : Nat) (hk : Valid cfg.nc k) :
    (w.stack c k).length ≤ w.capacity c k ∧ w.capacity c k ≤ w.caps k ∧ ∀ o ∈ w.stack c k, GoodObj o := by
  unfold W.stack W.capacity
  by_cases hp : w.populated c = true
  · rw [if_pos hp, if_pos hp, words_length]
    have e := eff_cur_le h.K hp hk
    have r := h.K.reg c hp
    have := r.hi k hk
    refine ⟨by omega, by omega, ?_⟩
    intro o ho
    unfold Mem.words at ho
    rw [List.mem_map] at ho
    obtain ⟨i, hi, rfl⟩ := ho
    rw [List.mem_range] at hi
    exact r.objs k hk _ (by omega) (by omega)
  · rw [if_neg hp, if_neg hp]
    exact ⟨Nat.le_refl _, Nat.zero_le _, by intro o ho; cases ho⟩

/-- The stages of a remote operation in which it reads or writes the headers of the CPU. -/
def RStage.works : RStage → Bool
  | .ready _ | .inited | .dr1 _ | .dr2 .. | .dr3 .. | .sh1 .. | .sh2 .. | .sh3 .. | .go1 .. | .go2 .. => true
  | _ => false

theorem inside_in {w : W} (k : K cfg w) {j : Nat} {th : Thread} (hj : w.thr[j]? = some th) {b c : Nat}
    (h : th.pc.inside = some (b, c)) : In w j th b c := by
  have ok := k.thr j th hj
  unfold ThOK at ok
  cases e : th.pc <;> rw [e] at h ok <;> simp only [PC.inside, Option.some.injEq, Prod.mk.injEq, reduceCtorEq] at h <;>
    obtain ⟨rfl, rfl⟩ := h
  case push1 => exact ok.2.2
  case push2 => exact ok.2.2.1
  case push3 => exact ok.2.2.1
  case push4 => exact ok.2.2.1
  case pop1 => exact ok.2
  case pop2 => exact ok.2.1
  case pop3 => exact ok.2.1
  case pop4 => exact ok.2.1
  case pushB1 => exact ok.2.2
  case pushB2 => exact ok.2.2.1
  case pushB3 => exact ok.2.2.1
  case popB1 => exact ok.2.2
  case popB2 => exact ok.2.2.1
  case popB3 => exact ok.2.2.1

/-- **C27.** Mutual exclusion: a thread inside a restartable sequence that has loaded a region runs on the CPU the
region belongs to, the region is in the current slabs and initialised, no other thread is inside a sequence on it,
and no operation of another CPU is working on its headers. -/
theorem exclusive (w : W) (h : Reach cfg w) (j : Nat) (th : Thread) (hj : w.thr[j]? = some th) (b c : Nat)
    (hin : th.pc.inside = some (b, c)) :
    th.cpu = some c ∧ b = w.slabs ∧ w.populated c = true ∧
    (∀ (j' : Nat) (th' : Thread) (b' : Nat), w.thr[j']? = some th' → th'.pc.inside = some (b', c) → j' = j) ∧
    (∀ o st, w.rem c = some (o, st) → st.works = false) ∧
    (∀ o r, w.rs = some (o, r) → ¬ r.fenced c) := by
  have g := inside_in h.K hj hin
  have hne : ∀ c', th.pc ≠ .remote c' ∧ th.pc ≠ .all := by
    intro c'
    constructor <;> (intro e; rw [e] at hin; cases hin)
  have nf : ∀ o, ¬ FencedBy w c o := by
    intro o ho
    have := g.2.nf o ho
    subst this
    rcases ho with ⟨st, h1, _⟩ | ⟨r, h1, _⟩
    · obtain ⟨th', e1, e2⟩ := (h.K.rem c o st h1).2.1
      rw [hj] at e1; injection e1 with e1; subst e1
      exact (hne c).1 e2
    · obtain ⟨th', e1, e2⟩ := (h.K.rs o r h1).1
      rw [hj] at e1; injection e1 with e1; subst e1
      exact (hne c).2 e2
  refine ⟨g.2.cpu, g.2.slabs, g.2.pop, ?_, ?_, ?_⟩
  · intro j' th' b' hj' hin'
    have g' := inside_in h.K hj' hin'
    exact h.K.uniq j' j th' th c hj' hj g'.2.cpu g.2.cpu
  · intro o st hr
    have := nf o
    cases st <;> first | rfl | exact absurd (Or.inl ⟨_, hr, trivial⟩) this
  · intro o r hr hf
    exact nf o (Or.inr ⟨r, hr, hf⟩)

/-- **C27.** What one instruction of a thread can do to the objects and capacities of all CPUs and to the objects
outside, and what the results it returns mean (`Effect`): pushes and pops are last-in first-out on the CPU
the thread runs on, take effect in one step or not at all, fail only if the class is full or empty or the pointer
to the slabs is not cached; batches transfer exactly the number possible; drains and shrinks hand over exactly the
objects they take away. -/
theorem act_effect (w w' : W) (h : Reach cfg w) (i : Nat) (ch : Ch) (th : Thread) (c : Nat) (out : Out)
    (hi : w.thr[i]? = some th) (hc : th.cpu = some c) (hs : step cfg w (.act i ch) = some (w', out)) :
    Effect cfg w w' c th out := by
  simp only [step, hi, hc] at hs
  exact thread_effect h.K hi hc hs

/-- **C27.** A successful pop returns the object on top of the stack; a failed one means that the stack was empty
or the pointer not cached. -/
theorem pop_lifo (w w' : W) (h : Reach cfg w) (i : Nat) (ch : Ch) (th : Thread) (c k : Nat) (r : Option Nat)
    (hi : w.thr[i]? = some th) (hc : th.cpu = some c) (hk : th.pc.cls = some k)
    (hs : step cfg w (.act i ch) = some (w', .popped r)) :
    (r = none ∧ (th.ptr = .none ∨ w.stack c k = [])) ∨
    (r = (w.stack c k).getLast? ∧ w'.stack c k = (w.stack c k).dropLast ∧ w.stack c k ≠ []) := by
  have ef := act_effect w w' h i ch th c _ hi hc hs
  cases r with
  | none =>
    obtain ⟨k', hk', _, _, e⟩ := ef
    rw [hk] at hk'; injection hk' with hk'; subst hk'
    exact Or.inl ⟨rfl, e⟩
  | some o =>
    obtain ⟨k', hk', _, _, _, e, _⟩ := ef
    rw [hk] at hk'; injection hk' with hk'; subst hk'
    exact Or.inr ⟨by rw [e]; simp, by rw [e]; simp, by rw [e]; simp⟩

/-- **C27.** Calls, preemption, migration, signals: they leave the objects and capacities of all CPUs as they are,
whatever the threads are doing. -/
theorem others_leave_alone (w w' : W) (e : Ev) (hp : Pre cfg w e) (hna : ∀ i ch, e ≠ .act i ch) (out : Out)
    (hs : step cfg w e = some (w', out)) : Same cfg w w' := (quiet hp hna hs).1

theorem eraseAll_count (l : List (Nat × Nat)) : ∀ held : List (Nat × Nat), (∀ a, l.count a ≤ held.count a) → ∀ a,
    (eraseAll held l).count a + l.count a = held.count a := by
  induction l with
  | nil => intro held _ a; simp [eraseAll]
  | cons x l ih =>
    intro held h a
    have hx := h x
    rw [List.count_cons_self] at hx
    have ih' := ih (held.erase x) (by
      intro b
      have := h b
      rw [List.count_cons] at this
      rw [List.count_erase]
      split at this <;> rename_i e
      · rw [if_pos e]; omega
      · rw [if_neg e]; omega) a
    show (eraseAll (held.erase x) l).count a + _ = _
    rw [List.count_erase] at ih'
    rw [List.count_cons]
    split at ih'
    · rename_i e
      rw [if_pos e]
      have : x = a := by simpa using e
      subst this
      omega
    · rename_i e
      rw [if_neg e]; omega

/-- The objects the step adds to the system are those that enter, and likewise for those that leave. -/
def Accounted (cfg : Cfg) (w w' : W) : Ev → Prop
  | .give k o => (w'.everything cfg).Perm ((k, o) :: w.everything cfg)
  | .take k o => ((k, o) :: w'.everything cfg).Perm (w.everything cfg)
  | _ => (w'.everything cfg).Perm (w.everything cfg)

/-- **C27.** No object is lost or duplicated, by any step of any operation: the objects outside, in the hands of
threads and in the slabs are together the same before and after, apart from those that enter from and leave to
the layers below. -/
theorem conserved (w w' : W) (h : Reach cfg w) (e : Ev) (hp : Pre cfg w e) (out : Out)
    (hs : step cfg w e = some (w', out)) : Accounted cfg w w' e := by
  have quiet' : (∀ i ch, e ≠ .act i ch) → ∀ a, (w'.cells cfg).count a = (w.cells cfg).count a :=
    fun hna a => (others_leave_alone w w' e hp hna out hs).cells a
  cases e
  case act i ch =>
    obtain ⟨th, hi, hcpu, _⟩ := hp
    simp only [step, hi] at hs
    cases hc : th.cpu with
    | none => exact absurd hc hcpu
    | some cpu => rw [hc] at hs; exact thread_conserves h.K hi hc hs
  case give k o =>
    have q := quiet' (fun _ _ e => by cases e)
    simp only [step] at hs
    injection hs with hs; injection hs with h1 h2
    show List.Perm _ _
    rw [List.perm_iff_count]
    intro a
    rw [List.count_cons, everything_count, everything_count, q]
    subst h1
    show ((k, o) :: w.held).count a + w.hands.count a + _ = _
    rw [List.count_cons]; omega
  case take k o =>
    have q := quiet' (fun _ _ e => by cases e)
    simp only [step] at hs
    injection hs with hs; injection hs with h1 h2
    show List.Perm _ _
    rw [List.perm_iff_count]
    intro a
    rw [List.count_cons, everything_count, everything_count, q]
    subst h1
    show (w.held.erase (k, o)).count a + w.hands.count a + _ + _ = _
    have hm : (k, o) ∈ w.held := hp
    have hm := List.count_pos_iff.mpr hm
    rw [List.count_erase]
    split
    · rename_i e
      have : (k, o) = a := by simpa using e
      subst this
      omega
    · omega
  case call i op =>
    have q := quiet' (fun _ _ e => by cases e)
    obtain ⟨th, hi, hidle, _, hp⟩ := hp
    simp only [step, hi] at hs
    injection hs with hs
    show List.Perm _ _
    rw [List.perm_iff_count]
    intro a
    rw [everything_count, everything_count, q]
    have nil : ∀ {th' : Thread}, th'.pc.hand = [] → w'.thr = w.thr.set i th' → w'.held = w.held →
        w'.held.count a + w'.hands.count a = w.held.count a + w.hands.count a := by
      intro th' e1 e2 e3
      have := LetGo.set (w := w) (w' := w') (l := []) hi e2 (fun a => by rw [e1, hidle]; rfl) a
      rw [e3, this]; rfl
    have put : ∀ {th' : Thread}, w'.thr = w.thr.set i th' →
        w'.hands.count a = w.hands.count a + th'.pc.hand.count a := by
      intro th' e2
      have := count_flatMap_set (fun th : Thread => th.pc.hand) a w.thr i th th' hi
      have hh : th.pc.hand.count a = 0 := by rw [hidle]; rfl
      unfold W.hands
      rw [e2]
      omega
    cases op <;> simp only [call] at hs <;> simp only at hp
    case push k o =>
      injection hs with h1 _
      have hm := List.count_pos_iff.mpr hp.2.2
      have := put (th' := { th with pc := .push0 k o }) (by subst h1; rfl)
      rw [this]
      subst h1
      show (w.held.erase (k, o)).count a + (_ + ([(k, o)] : List (Nat × Nat)).count a) + _ = _
      rw [List.count_erase, List.count_cons, List.count_nil]
      split
      · rename_i e
        have : (k, o) = a := by simpa using e
        subst this
        omega
      · omega
    case pushB k l =>
      injection hs with h1 _
      have := put (th' := { th with pc := .pushB0 k l }) (by subst h1; rfl)
      rw [this]
      have := eraseAll_count (l.map fun o => (k, o)) w.held hp.2.2.2 a
      subst h1
      show (eraseAll w.held (l.map fun o => (k, o))).count a + (_ + (l.map fun o => (k, o)).count a) + _ = _
      omega
    case cache =>
      split at hs
      · injection hs with h1 _
        rw [nil (th' := { th with pc := .cache1 }) rfl (by subst h1; rfl) (by subst h1; rfl)]
      · injection hs with h1 _
        rw [nil (th' := { th with ret := th.vcpu }) (by rw [hidle]; rfl) (by subst h1; rfl) (by subst h1; rfl)]
    case uncache =>
      injection hs with h1 _
      rw [nil (th' := { th with ptr := .none }) (by rw [hidle]; rfl) (by subst h1; rfl) (by subst h1; rfl)]
    case pop k =>
      injection hs with h1 _
      rw [nil (th' := { th with pc := .pop0 k }) rfl (by subst h1; rfl) (by subst h1; rfl)]
    case popB k n =>
      injection hs with h1 _
      rw [nil (th' := { th with pc := .popB0 k n }) rfl (by subst h1; rfl) (by subst h1; rfl)]
    case grow k n =>
      injection hs with h1 _
      rw [nil (th' := { th with pc := .grow0 k n }) rfl (by subst h1; rfl) (by subst h1; rfl)]
    case remote c =>
      injection hs with h1 _
      rw [nil (th' := { th with pc := .remote c }) rfl (by subst h1; rfl) (by subst h1; rfl)]
    case resize nb ncaps lim =>
      injection hs with h1 _
      rw [nil (th' := { th with pc := .all }) rfl (by subst h1; rfl) (by subst h1; rfl)]
    case release =>
      injection hs with h1 _
      rw [nil (th' := { th with pc := .all }) rfl (by subst h1; rfl) (by subst h1; rfl)]
  all_goals
    have q := quiet' (fun _ _ e => by cases e)
    show List.Perm _ _
    rw [List.perm_iff_count]
    intro a
    rw [everything_count, everything_count, q]
  case schedOut i =>
    obtain ⟨th, hi, _⟩ := hp
    simp only [step, hi] at hs
    injection hs with hs; injection hs with h1 _
    have := LetGo.set (w := w) (w' := w') (l := []) (th' := { th.fix with cpu := none }) hi (by subst h1; rfl)
      (fun a => by show _ = th.pc.restart.hand.count a + _; rw [restart_hand]; rfl) a
    rw [this]
    subst h1
    rfl
  case schedIn i c =>
    obtain ⟨_, ⟨th, hi, _⟩, _⟩ := hp
    simp only [step, hi] at hs
    injection hs with hs; injection hs with h1 _
    have := LetGo.set (w := w) (w' := w') (l := []) (th' := { th with cpu := some c }) hi (by subst h1; rfl)
      (fun a => rfl) a
    rw [this]
    subst h1
    rfl
  case signal i =>
    obtain ⟨th, hi⟩ := hp
    simp only [step, hi] at hs
    injection hs with hs; injection hs with h1 _
    have := LetGo.set (w := w) (w' := w') (l := []) (th' := th.fix) hi (by subst h1; rfl)
      (fun a => by show _ = th.pc.restart.hand.count a + _; rw [restart_hand]; rfl) a
    rw [this]
    subst h1
    rfl

/-- Histories in which an object enters only while it is nowhere in the system. -/
inductive Distinct (cfg : Cfg) : W → Prop
  | init {m b caps lim threads w} : Fits cfg.nc caps lim → W.init cfg m b caps lim threads = some w → Distinct cfg w
  | step {w e w' out} : Distinct cfg w → Pre cfg w e → (∀ k o, e = .give k o → ∀ k', (k', o) ∉ w.everything cfg) →
      step cfg w e = some (w', out) → Distinct cfg w'

theorem Distinct.reach {w : W} (h : Distinct cfg w) : Reach cfg w := by
  induction h with
  | init f hi => exact Reach.init f hi
  | step _ hp _ hs ih => exact Reach.step ih hp hs

theorem init_everything {m : Mem} {b : Nat} {caps : Nat → Nat} {lim threads : Nat} {w : W} (f : Fits cfg.nc caps lim)
    (hi : W.init cfg m b caps lim threads = some w) : w.everything cfg = [] := by
  have fl : w.held = [] ∧ w.rs = none ∧ (∀ c, w.populated c = false) ∧ ∀ th ∈ w.thr, th.pc = .idle := by
    unfold W.init at hi
    rw [f.initSlabs] at hi
    simp only [Option.some.injEq] at hi
    subst hi
    refine ⟨rfl, rfl, fun _ => rfl, ?_⟩
    intro th hth
    rw [List.mem_replicate] at hth
    rw [hth.2]
  obtain ⟨f1, f2, f3, f4⟩ := fl
  unfold W.everything
  rw [List.append_eq_nil_iff, List.append_eq_nil_iff, List.flatMap_eq_nil_iff, List.flatMap_eq_nil_iff]
  refine ⟨⟨f1, ?_⟩, ?_⟩
  · intro th hth
    rw [f4 th hth]; rfl
  · intro x _
    unfold W.cell W.stack
    rw [(left_none (old_none (fun i r e => by rw [f2] at e; cases e))).1, f3]
    rfl

/-- **C27.** Two threads can never get the same object: if objects enter at most once, then at every moment every
object is in exactly one place, once: outside, in the hand of one thread, or in one slot of one class of one CPU. -/
theorem in_one_place (w : W) (h : Distinct cfg w) : ((w.everything cfg).map (·.2)).Nodup := by
  induction h with
  | @init m b caps lim threads w f hi =>
    rw [init_everything f hi]
    exact List.nodup_nil
  | @step w e w' out r hp hg hs ih =>
    have hc := conserved w w' r.reach e hp out hs
    cases e
    case give k o =>
      rw [(hc.map _).nodup_iff, List.map_cons, List.nodup_cons]
      refine ⟨?_, ih⟩
      rw [List.mem_map]
      rintro ⟨⟨k', o'⟩, hm, e⟩
      simp only at e
      subst e
      exact hg k o' rfl k' hm
    case take k o =>
      rw [← (hc.map _).nodup_iff, List.map_cons, List.nodup_cons] at ih
      exact ih.2
    all_goals
      rw [(hc.map _).nodup_iff]
      exact ih

/-- **C27.** When the loop of a drain is over the CPU's classes are all empty and have given up their capacity,
although other threads, on that CPU too, were running all the time. -/
theorem drain_empties (w : W) (h : Reach cfg w) (c i k : Nat) (hr : w.rem c = some (i, .dr1 k)) (hk : cfg.nc ≤ k) :
    ∀ a, Valid cfg.nc a → w.cell c a = [] ∧ w.space c a = 0 :=
  fun a ha => h.D c i _ hr a ha (show a < k from Nat.lt_of_lt_of_le ha.2 hk)

/-- **C27.** When an operation on all CPUs is over nothing is left in the slabs it replaced. -/
theorem nothing_left (w : W) (h : Reach cfg w) (hr : w.rs = none) (c k : Nat) : w.left c k = [] ∧ w.leftCapacity c k = 0 := by
  have := h
  exact left_none (old_none (by intro i r e; rw [hr] at e; cases e))

/-- **C27.** Layout: in every region the ranges of the classes, including the marker word in front of each, lie
behind the headers, are disjoint, and end before the region does. -/
theorem layout (nc : Nat) (caps : Nat → Nat) (lim : Nat) (f : Fits nc caps lim) :
    ∃ bg, initSlabs nc caps lim = some bg ∧
      (∀ k, Valid nc k → 8 * (bg k - 1) ≥ 4 * nc ∧ bg k + caps k ≤ lim) ∧
      (∀ k k', Valid nc k → Valid nc k' → k < k' → bg k + caps k ≤ bg k' ∧ (caps k ≠ 0 → bg k + caps k ≤ bg k' - 1)) := by
  refine ⟨_, f.initSlabs, ?_, ?_⟩
  · intro k hk
    simp only [f.mod hk]
    have := beginOf_ge nc caps hk.1
    have := f.end_le hk
    unfold hdrWords at *
    omega
  · intro k k' hk hk' hlt
    simp only [f.mod hk, f.mod hk']
    have := beginOf_mono nc caps hk.1 hlt
    constructor
    · omega
    · intro hne
      rw [if_neg hne] at this
      omega

/-! ### The hypotheses are met -/

def fitsB (nc : Nat) (caps : Nat → Nat) (lim : Nat) : Bool :=
  decide (lim ≤ 65536) && (List.range nc).all fun k => k == 0 ||
    decide (caps k < 65536 ∧ (walk nc caps k).1 ≤ lim ∧ (walk nc caps k).1 < 65536)

theorem fitsB_ok {nc : Nat} {caps : Nat → Nat} {lim : Nat} (h : fitsB nc caps lim = true) : Fits nc caps lim := by
  unfold fitsB at h
  rw [Bool.and_eq_true, decide_eq_true_eq, List.all_eq_true] at h
  have key : ∀ k, Valid nc k → caps k < 65536 ∧ (walk nc caps k).1 ≤ lim ∧ (walk nc caps k).1 < 65536 := by
    intro k hk
    have := h.2 k (List.mem_range.mpr hk.2)
    rw [Bool.or_eq_true, decide_eq_true_eq] at this
    rcases this with e | e
    · have := hk.1
      simp at e; omega
    · exact e
  exact ⟨fun k hk => (key k hk).1, fun k hk => (key k hk).2.1, fun k hk => (key k hk).2.2, h.1⟩

instance (nc k : Nat) : Decidable (Valid nc k) := inferInstanceAs (Decidable (_ ∧ _))

def validB (nc k : Nat) : Bool := decide (1 ≤ k ∧ k < nc)
def goodB (o : Nat) : Bool := decide (o ≠ 0 ∧ o % 2 = 0)
def remFree (cfg : Cfg) (w : W) : Bool := (List.range cfg.n).all fun c => (w.rem c).isNone

/-- An executable check of the precondition. -/
def preB (cfg : Cfg) (w : W) : Ev → Bool
  | .call i op =>
    match w.thr[i]? with
    | none => false
    | some th => decide (th.pc = .idle) && th.cpu.isSome &&
      match op with
      | .push k o => validB cfg.nc k && goodB o && w.held.contains (k, o)
      | .pop k => validB cfg.nc k
      | .pushB k l => validB cfg.nc k && !l.isEmpty && l.all goodB &&
          l.all (fun o => decide ((l.map fun o => (k, o)).count (k, o) ≤ w.held.count (k, o)))
      | .popB k n => validB cfg.nc k && decide (0 < n)
      | .grow k _ => validB cfg.nc k
      | .cache => true
      | .uncache => true
      | .remote c => decide (c < cfg.n) && (w.rem c).isNone && w.allFree
      | .resize nb ncaps lim => decide (nb ≠ w.slabs) && fitsB cfg.nc ncaps lim && w.rs.isNone && remFree cfg w
      | .release => w.rs.isNone && remFree cfg w
  | .act i ch =>
    match w.thr[i]? with
    | none => false
    | some th => th.cpu.isSome &&
      match th.pc with
      | .remote _ => decide (2 ≤ ch.op → Valid cfg.nc ch.k)
      | _ => true
  | .schedOut i => match w.thr[i]? with | none => false | some th => th.cpu.isSome
  | .schedIn i c => decide (c < cfg.n) && (match w.thr[i]? with | none => false | some th => th.cpu.isNone) &&
      w.thr.all (fun th => th.cpu != some c)
  | .signal i => (w.thr[i]?).isSome
  | .give k o => validB cfg.nc k && goodB o
  | .take k o => w.held.contains (k, o)

theorem remFree_ok {w : W} (k : K cfg w) (h : remFree cfg w = true) : ∀ c, w.rem c = none := by
  intro c
  cases e : w.rem c with
  | none => rfl
  | some x =>
    obtain ⟨i, st⟩ := x
    have hc := (k.rem c i st e).1
    unfold remFree at h
    rw [List.all_eq_true] at h
    have := h c (List.mem_range.mpr hc)
    rw [e] at this
    cases this

theorem preB_ok {w : W} (k : K cfg w) {e : Ev} (h : preB cfg w e = true) : Pre cfg w e := by
  cases e
  case call i op =>
    simp only [preB] at h
    split at h
    · cases h
    · rename_i th hi
      rw [Bool.and_eq_true, Bool.and_eq_true, decide_eq_true_eq] at h
      obtain ⟨⟨h1, h2⟩, h3⟩ := h
      refine ⟨th, hi, h1, (by intro e; rw [e] at h2; cases h2), ?_⟩
      cases op <;> simp only at h3 ⊢
      case push a o =>
        simp only [Bool.and_eq_true, validB, goodB, decide_eq_true_eq, List.contains_iff_mem] at h3
        exact ⟨h3.1.1, h3.1.2, h3.2⟩
      case pop a => simpa [validB, Valid] using h3
      case pushB a l =>
        simp only [Bool.and_eq_true, validB, decide_eq_true_eq, List.all_eq_true, Bool.not_eq_true', List.isEmpty_eq_false_iff] at h3
        refine ⟨h3.1.1.1, h3.1.1.2, ?_, ?_⟩
        · intro o ho; simpa [goodB, GoodObj] using h3.1.2 o ho
        · intro x
          by_cases hx : x ∈ l.map fun o => (a, o)
          · rw [List.mem_map] at hx
            obtain ⟨o, ho, rfl⟩ := hx
            exact h3.2 o ho
          · rw [List.count_eq_zero.mpr hx]; exact Nat.zero_le _
      case popB a n =>
        simp only [Bool.and_eq_true, validB, decide_eq_true_eq] at h3
        exact ⟨h3.1, h3.2⟩
      case grow a n => simpa [validB, Valid] using h3
      case remote c =>
        simp only [Bool.and_eq_true, decide_eq_true_eq, Option.isNone_iff_eq_none] at h3
        exact ⟨h3.1.1, h3.1.2, h3.2⟩
      case resize nb ncaps lim =>
        simp only [Bool.and_eq_true, decide_eq_true_eq, Option.isNone_iff_eq_none] at h3
        exact ⟨h3.1.1.1, fitsB_ok h3.1.1.2, h3.1.2, remFree_ok k h3.2⟩
      case release =>
        simp only [Bool.and_eq_true, Option.isNone_iff_eq_none] at h3
        exact ⟨h3.1, remFree_ok k h3.2⟩
  case act i ch =>
    simp only [preB] at h
    split at h
    · cases h
    · rename_i th hi
      rw [Bool.and_eq_true] at h
      refine ⟨th, hi, (by intro e; rw [e] at h; cases h.1), ?_⟩
      intro c o _ hpc h2
      have h' := h.2
      rw [hpc] at h'
      simp only [decide_eq_true_eq] at h'
      exact h' h2
  case schedOut i =>
    simp only [preB] at h
    split at h
    · cases h
    · rename_i th hi
      exact ⟨th, hi, (by intro e; rw [e] at h; cases h)⟩
  case schedIn i c =>
    simp only [preB, Bool.and_eq_true, decide_eq_true_eq] at h
    obtain ⟨⟨h1, h2⟩, h3⟩ := h
    refine ⟨h1, ?_, ?_⟩
    · split at h2
      · cases h2
      · rename_i th hi
        exact ⟨th, hi, by simpa using h2⟩
    · intro th hth
      rw [List.all_eq_true] at h3
      simpa using h3 th hth
  case signal i =>
    simp only [preB, Option.isSome_iff_exists] at h
    exact h
  case give a o =>
    simp only [preB, Bool.and_eq_true, validB, goodB, decide_eq_true_eq] at h
    exact h
  case take a o =>
    simpa [preB, Pre] using h

def runAll (cfg : Cfg) : W → List Ev → Option (W × List Out)
  | w, [] => some (w, [])
  | w, e :: es =>
    if preB cfg w e then
      (step cfg w e).bind fun (w', o) => (runAll cfg w' es).map fun (z, os) => (z, o :: os)
    else none

theorem runAll_reach : ∀ (es : List Ev) (x y : W) (os : List Out), Reach cfg x → runAll cfg x es = some (y, os) → Reach cfg y
  | [], x, y, os, h, e => by simp only [runAll, Option.some.injEq, Prod.mk.injEq] at e; rw [← e.1]; exact h
  | ev :: es, x, y, os, h, e => by
    unfold runAll at e
    split at e
    · rename_i hp
      rw [Option.bind_eq_some_iff] at e
      obtain ⟨⟨x', o⟩, h1, h2⟩ := e
      rw [Option.map_eq_some_iff] at h2
      obtain ⟨⟨z, os'⟩, h3, h4⟩ := h2
      simp only [Prod.mk.injEq] at h4
      rw [← h4.1]
      exact runAll_reach es x' z os' (Reach.step (e := ev) h (preB_ok h.K hp) h1) h3
    · cases e

namespace Story

/-- Two CPUs, classes 1 and 2 with maximal capacities 2 and 1, two threads, memory full of junk. -/
def cfg0 : Cfg := ⟨2, 3, false⟩
def caps0 : Nat → Nat := fun k => if k = 1 then 2 else 1
def mem0 : Mem := ⟨fun _ _ _ => ⟨9, 4⟩, fun _ _ i => 7 * i⟩

theorem fits0 : Fits cfg0.nc caps0 8 := fitsB_ok (by decide +kernel)

theorem init_some : (W.init cfg0 mem0 0 caps0 8 2).isSome = true := by decide +kernel
def start : W := (W.init cfg0 mem0 0 caps0 8 2).get init_some
theorem start_reach : Reach cfg0 start := Reach.init (m := mem0) (b := 0) (threads := 2) fits0 (Option.some_get init_some).symm

def go (op : Nat) (k := 1) (len := 1) : Ch := ⟨op, k, len, fun c => c == 0, fun _ _ => true, fun _ i => i % 2 == 0⟩
/-- `n` steps of thread `i`. -/
def acts (i n : Nat) (op := 0) (k := 1) : List Ev := List.replicate n (.act i (go op k))

/-- Thread 0 populates CPU 0, grows class 1 to 2, pushes 100 and 102, and starts a pop. -/
def fill : List Ev :=
  [.schedIn 0 0, .call 0 .cache] ++ acts 0 15 ++ [.call 0 (.grow 1 5)] ++ acts 0 6 ++
    [.give 1 100, .give 1 102, .give 1 104, .call 0 (.push 1 100)] ++ acts 0 5 ++ [.call 0 (.push 1 102)] ++ acts 0 5 ++
    [.call 0 (.push 1 104)] ++ acts 0 3 ++ [.call 0 (.pop 1)] ++ acts 0 3

/-- Thread 1, on CPU 1, drains CPU 0 while thread 0 is in the middle of the pop, up to the end of the loop. -/
def drain : List Ev :=
  [.schedIn 1 1, .call 1 (.remote 0)] ++ acts 1 2 ++ acts 0 1 ++ acts 1 1 1 ++ acts 1 6

/-- The drain ends; thread 0 caches the pointer again, grows, and pushes 100 as part of a batch that does not fit. -/
def refill : List Ev :=
  acts 1 1 ++ acts 1 2 ++ [.call 0 .cache] ++ acts 0 8 ++ [.call 0 (.grow 1 1)] ++ acts 0 6 ++
    [.call 0 (.pushB 1 [100, 102])] ++ acts 0 3

/-- Thread 1 moves the slabs elsewhere while thread 0 is in the middle of the batch, which is thereby refused (the
pointer is no longer cached); then it drains what is left in the old slabs.  Here: an object pushed before. -/
def resize : List Ev :=
  acts 0 2 ++ [.call 1 (.resize 1 (fun k => if k = 2 then 3 else 1) 8)] ++ acts 1 2 ++ acts 1 2 1 ++
    [.call 0 (.pop 1)] ++ acts 0 2 ++ acts 1 1 2 ++ acts 1 2 3 0 ++ acts 0 1 ++ acts 1 1 4 ++
    acts 1 2 ++ acts 1 7 ++ acts 1 1 ++ acts 1 2

/-- The results, in order. -/
def results (es : List Ev) : Option (List Out) := (runAll cfg0 start es).map fun x => x.2.filter (· != .tau)

example : results fill = some [.cached (some 0), .grew 2, .pushed true, .pushed true, .pushed false] := by decide +kernel

/-- The drain takes both objects and the capacity; the pop in progress is restarted and fails. -/
example : results (fill ++ drain) = some
    [.cached (some 0), .grew 2, .pushed true, .pushed true, .pushed false,
      .popped none, .handed 0 1 [100, 102] 2, .handed 0 2 [] 0] := by decide +kernel

example : results (fill ++ drain ++ refill ++ resize) = some
    [.cached (some 0), .grew 2, .pushed true, .pushed true, .pushed false,
      .popped none, .handed 0 1 [100, 102] 2, .handed 0 2 [] 0, .cached (some 0), .grew 1, .pushedB 1,
      .popped none, .handed 0 1 [102] 1, .handed 0 2 [] 0] := by decide +kernel

theorem inpop_some : (runAll cfg0 start fill).isSome = true := by decide +kernel
/-- Thread 0 is inside `Pop` on CPU 0. -/
def inpop : W := ((runAll cfg0 start fill).get inpop_some).1
theorem inpop_reach : Reach cfg0 inpop := runAll_reach fill start inpop _ start_reach (Option.some_get inpop_some).symm

theorem drained_some : (runAll cfg0 start (fill ++ drain)).isSome = true := by decide +kernel
/-- Thread 1 has finished the loop of the drain. -/
def drained : W := ((runAll cfg0 start (fill ++ drain)).get drained_some).1
theorem drained_reach : Reach cfg0 drained :=
  runAll_reach (fill ++ drain) start drained _ start_reach (Option.some_get drained_some).symm

/-- `exclusive`, `bounded`, `act_effect`, `pop_lifo`: thread 0 holds the word it loaded, class 1 has two objects and
capacity 2. -/
example : Reach cfg0 inpop ∧ (inpop.thr[0]?.map fun th => (th.pc, th.cpu)) = some (.pop3 1 0 0 5 102, some 0) ∧
    inpop.stack 0 1 = [100, 102] ∧ inpop.capacity 0 1 = 2 ∧ Valid cfg0.nc 1 :=
  ⟨inpop_reach, by decide +kernel, by decide +kernel, by decide +kernel, by decide +kernel⟩

/-- … and the next two steps of thread 0 pop it. -/
example : ((runAll cfg0 inpop (acts 0 2)).map fun x => (x.2, x.1.stack 0 1)) = some ([.tau, .popped (some 102)], [100]) := by
  decide +kernel

/-- `conserved`: the three objects, one outside and two in the slab, then all outside. -/
example : inpop.everything cfg0 = [(1, 104), (1, 100), (1, 102)] ∧
    drained.everything cfg0 = [(1, 100), (1, 102), (1, 104)] := by decide +kernel

/-- `drain_empties`. -/
example : Reach cfg0 drained ∧ drained.rem 0 = some (1, .dr1 3) ∧ cfg0.nc ≤ 3 := ⟨drained_reach, by decide +kernel, by decide +kernel⟩

/-- `others_leave_alone`, `conserved`, `step_defined`: thread 0 can be preempted in the middle of its pop. -/
example : Pre cfg0 inpop (.schedOut 0) := preB_ok inpop_reach.K (by decide +kernel)

/-- `in_one_place`: objects that enter are new. -/
def freshB (w : W) : Ev → Bool
  | .give _ o => (w.everything cfg0).all fun x => x.2 != o
  | _ => true

theorem freshB_ok {w : W} {e : Ev} (h : freshB w e = true) : ∀ k o, e = .give k o → ∀ k', (k', o) ∉ w.everything cfg0 := by
  rintro k o rfl k' hm
  simp only [freshB, List.all_eq_true] at h
  have := h _ hm
  simp at this

def runFresh : W → List Ev → Option W
  | w, [] => some w
  | w, e :: es => if preB cfg0 w e && freshB w e then (step cfg0 w e).bind fun x => runFresh x.1 es else none

theorem runFresh_distinct : ∀ (es : List Ev) (x y : W), Distinct cfg0 x → runFresh x es = some y → Distinct cfg0 y
  | [], x, y, h, e => by simp only [runFresh, Option.some.injEq] at e; rw [← e]; exact h
  | ev :: es, x, y, h, e => by
    unfold runFresh at e
    split at e
    · rename_i hp
      rw [Bool.and_eq_true] at hp
      rw [Option.bind_eq_some_iff] at e
      obtain ⟨⟨x', o⟩, h1, h2⟩ := e
      exact runFresh_distinct es x' y (Distinct.step (e := ev) h (preB_ok h.reach.K hp.1) (freshB_ok hp.2) h1) h2
    · cases e

theorem distinct_some : (runFresh start fill).isSome = true := by decide +kernel
example : Distinct cfg0 ((runFresh start fill).get distinct_some) :=
  runFresh_distinct fill start _ (Distinct.init (m := mem0) (b := 0) (threads := 2) fits0 (Option.some_get init_some).symm)
    (Option.some_get distinct_some).symm

/-- `nothing_left` and the release of metadata: after the story above nothing runs on all CPUs; CPU 0, drained, is
then released by thread 1, which zeroes part of its memory, and has to be populated again. -/
def release : List Ev :=
  [.call 1 .release] ++ acts 1 2 ++ acts 1 1 2 ++ acts 1 2 3 0 ++ acts 1 1 4 ++ acts 1 3 ++
    [.call 0 .cache] ++ acts 0 15

def whole : List Ev := fill ++ drain ++ refill ++ resize
theorem over_some : (runAll cfg0 start whole).isSome = true := by decide +kernel
def over : W := ((runAll cfg0 start whole).get over_some).1
set_option maxRecDepth 10000 in
theorem over_reach : Reach cfg0 over :=
  by
  have h := (Option.some_get over_some).symm
  exact runAll_reach _ _ _ _ start_reach h
set_option maxRecDepth 10000 in
example : Reach cfg0 over ∧ over.rs.isNone ∧ over.slabs = 1 := ⟨over_reach, by decide +kernel, by decide +kernel⟩
example : ((runAll cfg0 over release).map fun x => x.2.filter (· != .tau)) = some [.cached (some 0)] := by decide +kernel

end Story

end Verif.Slab
