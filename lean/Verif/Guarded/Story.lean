import Verif.Guarded.Props
/-! A concrete history that meets the hypotheses of the theorems in Props.lean. -/
namespace Verif.Guarded

/-- Three slots, at most two in use; pages of 4096 bytes. -/
def cfg : Cfg := ⟨0x10000, 4096, 3, 2⟩

theorem cfg_ok : cfg.OK :=
  ⟨⟨12, rfl, by decide⟩, rfl, by decide, by decide, by decide, by decide⟩

def isPow (n : Nat) : Bool := (List.range 13).any fun k => n = 2 ^ k

def preB (c : Cfg) (s : S) (L : List Obj) : Ev → Bool
  | .reserve size al _ => decide (size ≤ c.ps ∧ al ≤ c.ps) && (decide (al = 0) || isPow al)
  | .allocate i _ => i < s.allocs.length
  | .dealloc p => L.any fun o => o.ptr = p
  | .protect i => i < s.frees.length
  | .giveBack i => i < s.backs.length
  | .store a _ => L.any fun o => decide (o.ptr ≤ a ∧ a < o.ptr + o.size)

theorem preB_ok {c : Cfg} {s : S} {L : List Obj} {e : Ev} (h : preB c s L e = true) : Pre c s L e := by
  cases e with
  | reserve size al r =>
    simp only [preB, Bool.and_eq_true, decide_eq_true_eq, Bool.or_eq_true, isPow, List.any_eq_true] at h
    exact ⟨h.1.1, h.1.2, h.2.imp id fun ⟨k, _, e⟩ => ⟨k, e⟩⟩
  | allocate i ok =>
    simp only [preB, decide_eq_true_eq] at h
    exact h
  | dealloc p =>
    simp only [preB, List.any_eq_true, decide_eq_true_eq] at h
    exact h
  | protect i =>
    simp only [preB, decide_eq_true_eq] at h
    exact h
  | giveBack i =>
    simp only [preB, decide_eq_true_eq] at h
    exact h
  | store a b =>
    simp only [preB, List.any_eq_true, decide_eq_true_eq] at h
    exact h

def runAll (c : Cfg) (s : S) (L : List Obj) : List Ev → Option (S × List Obj × List Out)
  | [] => some (s, L, [])
  | e :: es =>
    if preB c s L e then
      match step c s e with
      | none => none
      | some (s', o) => (runAll c s' (live' L s e o) es).map fun x => (x.1, x.2.1, o :: x.2.2)
    else none

theorem runAll_run {c : Cfg} {es : List Ev} : ∀ {s L s' L' os s0 L0}, Run c s0 L0 s L → runAll c s L es = some (s', L', os) →
    Run c s0 L0 s' L' := by
  induction es with
  | nil => intro s L s' L' os s0 L0 hr h; cases h; exact hr
  | cons e es ih =>
    intro s L s' L' os s0 L0 hr h
    unfold runAll at h
    split at h
    · rename_i hp
      split at h
      · cases h
      · rename_i s1 o hs
        simp only [Option.map_eq_some_iff] at h
        obtain ⟨x, hx, he⟩ := h
        cases he
        exact ih (Run.step hr (preB_ok hp) hs) hx
    · cases h

/-- Two objects are allocated, one left-aligned in slot 1 and one right-aligned in slot 2; a third request is refused. -/
def evs1 : List Ev :=
  [.reserve 100 0 4, .reserve 24 64 2, .reserve 8 0 0, .allocate 1 true, .allocate 0 true, .store 0x15fc0 7, .store 0x13063 9]

/-- The object in slot 2 is freed, and the slot given back; a zero-sized object goes to slot 0. -/
def evs2 : List Ev := [.dealloc 0x15fc0, .protect 0, .giveBack 0, .reserve 0 16 0, .allocate 0 false]

def r1 := runAll cfg (S.init fun _ => 0) [] evs1

def outs1 : List Out :=
  [.slot (some 1), .slot (some 2), .slot none, .ptr (some 0x15fc0), .ptr (some 0x13000), .done, .done]
def live1 : List Obj := [⟨0x13000, 1, 100, 0⟩, ⟨0x15fc0, 2, 24, 64⟩]

theorem r1_out : r1.map (fun x => (x.2.1, x.2.2)) = some (live1, outs1) := by decide +kernel

theorem r1_some : r1.isSome = true := by decide +kernel
def mid := r1.get r1_some
theorem mid_run : Run cfg (S.init fun _ => 0) [] mid.1 mid.2.1 :=
  runAll_run (os := mid.2.2) (Run.refl _ _) (show r1 = some mid by unfold mid; exact (Option.some_get _).symm)
theorem mid_reach : Reach cfg mid.1 mid.2.1 := Run.reach (Reach.init _) mid_run
theorem mid_live : mid.2.1 = live1 := by decide +kernel

def r2 := runAll cfg mid.1 mid.2.1 evs2
def outs2 : List Out := [.cont, .cont, .done, .slot (some 0), .ptr (some 0x11000)]
def live2 : List Obj := [⟨0x11000, 0, 0, 16⟩, ⟨0x13000, 1, 100, 0⟩]
theorem r2_out : r2.map (fun x => (x.2.1, x.2.2)) = some (live2, outs2) := by decide +kernel
theorem r2_some : r2.isSome = true := by decide +kernel
def late := r2.get r2_some
theorem late_run : Run cfg mid.1 mid.2.1 late.1 late.2.1 :=
  runAll_run (os := late.2.2) (Run.refl _ _) (show r2 = some late by unfold late; exact (Option.some_get _).symm)
theorem late_reach : Reach cfg late.1 late.2.1 := Run.reach mid_reach late_run
theorem late_live : late.2.1 = live2 := by decide +kernel
theorem late_frees : late.1.frees = [] := by decide +kernel

def obj1 : Obj := ⟨0x13000, 1, 100, 0⟩
def obj2 : Obj := ⟨0x15fc0, 2, 24, 64⟩
theorem obj1_mem : obj1 ∈ mid.2.1 := by rw [mid_live]; decide
theorem obj2_mem : obj2 ∈ mid.2.1 := by rw [mid_live]; decide

-- `slots_exclusive`, `calls_succeed`, `objects_placed`: at the limit with two objects
example : owners mid.1 mid.2.1 = [1, 2] ∧ mid.1.allocated = cfg.limit := by decide +kernel
example : Pre cfg mid.1 mid.2.1 (.dealloc 0x15fc0) := ⟨obj2, obj2_mem, rfl⟩
-- `access_exact`: both kinds of pages occur
example : accessible cfg mid.1 0x15fff = true ∧ accessible cfg mid.1 0x16000 = false := by decide +kernel
-- `guards_fault`, `guard_adjacent`
example : store cfg mid.1 0x12fff 1 = (mid.1, .fault) := (guard_adjacent cfg_ok mid_reach obj1_mem 1).1 rfl
example : ∃ a, obj2.ptr + 24 ≤ a ∧ a < obj2.ptr + 24 + 64 ∧ store cfg mid.1 a 1 = (mid.1, .fault) :=
  (guard_adjacent cfg_ok mid_reach obj2_mem 1).2.2 rfl (by decide)
-- `report_live`: one byte before the object in slot 1, and just behind the page of slot 2
example : report cfg mid.1 0x12fff = some (1, .underflow) :=
  (report_live cfg_ok mid_reach obj1_mem (by decide) (by decide)).1 (by decide)
example : report cfg mid.1 0x16000 = some (2, .overflow) :=
  (report_live cfg_ok mid_reach obj2_mem (by decide) (by decide)).2 (by decide)
-- `size_known`
example : requestedSize cfg mid.1 0x15fd0 = some 24 ∧ correctlyAligned cfg mid.1 0x15fd0 = some false :=
  size_known cfg_ok mid_reach obj2_mem (by unfold Cfg.On; decide)
-- `overflow_detected`: the byte behind the object is checked, and a wrong value there is found
example : Window cfg obj2 0x15fd8 := ⟨by decide, by decide, by decide, by decide, by decide⟩
example : magic 2 = 0xcd := by decide
example : ∃ s1 s2, dealloc cfg { mid.1 with mem := fun _ => 0 } 0x15fc0 = some (s1, .cont) ∧
    protect cfg s1 mid.1.frees.length = some (s2, .overflow) := by
  obtain ⟨s1, s2, out, h1, h2, h3, -⟩ := overflow_detected cfg_ok mid_reach obj2_mem (fun _ => 0)
  rw [h3 ⟨0x15fd8, ⟨by decide, by decide, by decide, by decide, by decide⟩, by decide⟩] at h2
  exact ⟨s1, s2, h1, h2⟩
-- `wrong_address_reported`
example : ∃ s1 s2, dealloc cfg mid.1 0x15fd0 = some (s1, .cont) ∧ protect cfg s1 mid.1.frees.length = some (s2, .corrupted) :=
  wrong_address_reported cfg_ok mid_reach obj2_mem (by unfold Cfg.On; decide) (by decide)
-- `double_free_reported`, `use_after_free_reported`, `report_freed`: the object of slot 2 is gone
example : ∃ s2, dealloc cfg late.1 0x15fc0 = some (s2, .doubleFree) :=
  double_free_reported cfg_ok mid_reach obj2_mem late_run (by rw [late_live]; decide) (by unfold Cfg.On; decide)
example : store cfg late.1 0x15fc0 1 = (late.1, .fault) ∧ report cfg late.1 0x15fc0 = some (2, .useAfterFree) :=
  use_after_free_reported cfg_ok mid_reach obj2_mem late_run (by rw [late_live]; decide) (by rw [late_frees]; decide)
    (by unfold Cfg.On; decide) 1
-- `guarded_rate`, `guarded_choice`
example : verdict 1 100 10 2 25 1 2 7 false = .tryIt ∧ verdict 1 100 10 3 25 1 2 7 false = .rateLimited ∧
    verdict 1 100 10 2 25 1 2 7 true = .filtered := by decide

/-- In slot 0, and in no other right-aligned slot, the value of the checked bytes is 0: zero bytes written behind an object
there go unnoticed. -/
theorem zero_overflow_missed : ∀ slot < maxPages, slot % 2 = 0 → (magic slot = 0 ↔ slot = 0) := by decide +kernel

end Verif.Guarded
