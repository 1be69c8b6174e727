import Verif.HookList.Lemmas
/-! Property C56: the hooks of `MallocHook`. -/
namespace Verif.HookList

/-- An `Invoke` and calls of `Add` and `Remove` by other threads in any interleaving: a hook `v` is called as often as it
is in the list, if no `Add(v)` or `Remove(v)` is under way when `Invoke` starts or starts before it calls the hooks.  So a hook
whose `Add` has returned is called, one whose `Remove` has returned is not, whatever happens to other hooks meanwhile. -/
theorem invoke_exact {first : List Nat} {s0 s s' : St} (hi : Init first s0) {tr0 tr : List (Ev × Out)} (h0 : Exec s0 tr0 s)
    (h : Exec s tr s') {t : Nat} {l : List Nat} (hinv : InvokeTrace t tr l) {v : Nat} (hv : v ≠ 0) (hset : Settled v tr0)
    (hq : ∀ x ∈ tr, x.1.about v = false) : l.count v + removes (· == v) tr0 = first.count v + adds (· == v) tr0 := by
  have I0 := hi.inv
  have I := h0.inv I0
  have hb : busy v s.lock = 0 := by
    have := h0.busy v
    rw [(hi.facts fun _ => true).2] at this
    unfold Settled at hset
    have h00 : busy v none = 0 := rfl
    omega
  have hpA : ∀ lk, busy v lk = 0 → pendA (· == v) lk = 0 ∧ pendR (· == v) lk = 0 := by
    intro lk hlk
    cases lk with
    | none => exact ⟨rfl, rfl⟩
    | some w => cases w <;> simp_all [busy, Writer.about, pendA, pendR]
  have hcnt : cnt (· == v) s.data + removes (· == v) tr0 = first.count v + adds (· == v) tr0 := by
    have := h0.count I0 (· == v)
    rw [(hpA _ hb).1, (hpA _ hb).2, (hi.facts (· == v)).1, (hi.facts (· == v)).2] at this
    have h1 : first.countP (· == v) = first.count v := rfl
    simp only [pendA, pendR] at this
    omega
  suffices hl : l.count v = cnt (· == v) s.data by rw [hl]; exact hcnt
  -- the rest of the traversal
  have rest : ∀ {s s' : St} {tr : List (Ev × Out)}, Exec s tr s' → Inv s → busy v s.lock = 0 → Seen v s (s.rd t) →
      (∀ x ∈ tr, x.1.about v = false) → tr.getLast?.map (·.2) = some (.called t l) → (∀ x ∈ tr.dropLast, x.2.isCalled t = false) →
      l.count v = cnt (· == v) s.data := by
    intro s s' tr h
    induction h with
    | nil s => intro _ _ _ _ hl; cases hl
    | @cons s s1 s2 e o tr h ht ih =>
      intro I hb hS hq hl hd
      have hbe := step_busy h v
      rw [hq _ (List.mem_cons_self ..)] at hbe
      have hb1 : busy v s1.lock = 0 := by
        have : b2n false = 0 := rfl
        omega
      have hsame := step_same I h hv hb
      have hcs : cnt (· == v) s1.data = cnt (· == v) s.data := by
        rw [← upto_cnt _ hv, ← upto_cnt _ hv, (I.step h).len, I.len, upto_congr hsame]
      have hrd : e ≠ .read t → s1.rd t = s.rd t ∧ o.isCalled t = false := by
        intro he
        by_cases hi : e = .invoke t
        · exfalso
          rw [hi] at h
          simp only [HookList.step] at h
          split at h
          · cases h
          · rename_i hn; rw [hn] at hS; exact hS
        · exact step_rd h he hi
      have hS1 : o.isCalled t = false → Seen v s1 (s1.rd t) := by
        intro ho
        by_cases he : e = .read t
        · rw [he] at h
          rcases read_seen I hv hb hS h with ⟨-, h1⟩ | ⟨l', h1, -⟩
          · exact h1
          · rw [h1] at ho
            simp [Out.isCalled] at ho
        · rw [(hrd he).1]
          cases hr : s.rd t with
          | none => rw [hr] at hS; exact hS
          | some r =>
            rw [hr] at hS
            cases r with
            | start => trivial
            | loop e i n out => exact ⟨fun j hj => hS.1 j ((hsame j).1 hj), by rw [hS.2, upto_congr hsame]⟩
      cases tr with
      | nil =>
        have ho : o = .called t l := by
          simpa using hl
        by_cases he : e = .read t
        · rw [he] at h
          rcases read_seen I hv hb hS h with ⟨h1, -⟩ | ⟨l', h1, h2⟩
          · rw [ho] at h1; simp [Out.isCalled] at h1
          · rw [ho] at h1; cases h1; exact h2
        · have := (hrd he).2
          rw [ho] at this; simp [Out.isCalled] at this
      | cons y ys =>
        rw [← hcs]
        refine ih (I.step h) hb1 (hS1 (hd (e, o) ?_)) (fun x hx => hq x (List.mem_cons_of_mem _ hx)) ?_ (fun x hx => hd x ?_)
        · rw [List.dropLast_cons_cons]; exact List.mem_cons_self ..
        · rw [List.getLast?_cons_cons] at hl; exact hl
        · rw [List.dropLast_cons_cons]; exact List.mem_cons_of_mem _ hx
  -- its first step
  obtain ⟨h1, h2, h3⟩ := hinv
  cases h with
  | nil => cases h1
  | @cons _ s1 _ e o tr h ht =>
    have he : e = .invoke t := by simpa using h1
    subst he
    have hq' := fun x hx => hq x (List.mem_cons_of_mem _ hx)
    simp only [HookList.step] at h
    split at h
    · cases h
    rename_i hr
    split at h
    · rename_i htl
      cases h
      cases tr with
      | nil =>
        have hl : ([] : List Nat) = l := by simpa using h2
        rw [← hl, ← upto_cnt _ hv, I.len, upto_stop (e := 0) (fun j hj => by have := I.below hv hb hj; omega) 7 (by omega)]
        rfl
      | cons y ys =>
        have := h3 (.invoke t, .called t []) (by rw [List.dropLast_cons_cons]; exact List.mem_cons_self ..)
        simp [Out.isCalled] at this
    · cases h
      cases tr with
      | nil => simp at h2
      | cons y ys =>
        have I1 : Inv { s with rd := setRd s.rd t (some .start) } := I.step (e := .invoke t) (o := .none) (by
          simp only [HookList.step, hr]
          rw [if_neg (by assumption)])
        have key := rest ht I1 hb (by
          show Seen v _ (setRd _ _ _ t)
          unfold setRd; rw [if_pos rfl]; trivial) hq' (by rw [List.getLast?_cons_cons] at h2; exact h2)
          (fun x hx => h3 x (by rw [List.dropLast_cons_cons]; exact List.mem_cons_of_mem _ hx))
        exact key

/-- Never more than seven hooks are called, and never a null pointer. -/
theorem invoke_bounded {first : List Nat} {s0 s s' : St} (hi : Init first s0) {tr : List (Ev × Out)} (h0 : Exec s0 tr s) {e : Ev} {t : Nat}
    {l : List Nat} (h : step s e = some (s', .called t l)) : l.length ≤ 7 ∧ 0 ∉ l := by
  have I := h0.inv hi.inv
  cases e with
  | add u v =>
    simp only [HookList.step] at h
    split at h
    · cases h
    split at h
    · cases h
    split at h <;> cases h
  | remove u v =>
    simp only [HookList.step] at h
    split at h
    · cases h
    split at h
    · cases h
    split at h <;> cases h
  | write =>
    simp only [HookList.step] at h
    split at h
    · cases h
    · split at h
      · split at h <;> cases h
      · cases h
    · cases h
    · split at h
      · split at h <;> cases h
      · cases h
    · cases h
  | invoke u =>
    simp only [HookList.step] at h
    split at h
    · cases h
    split at h
    · cases h; exact ⟨by decide, by decide⟩
    · cases h
  | read u =>
    have key : ∀ e i n out, (again s u e i n out) = (s', .called t l) → out = l := by
      intro e i n out hh
      obtain ⟨-, -, -, -, g5⟩ := again_facts s u e i n out
      rw [hh] at g5; dsimp only at g5
      rcases g5 with ⟨-, -, -, h6⟩ | ⟨-, -, h6⟩ <;> cases h6
      rfl
    simp only [HookList.step] at h
    split at h
    · cases h
    · rw [← key _ _ _ _ (Option.some.inj h)]; exact ⟨by decide, by decide⟩
    · rename_i e i n out hr
      obtain ⟨g1, g2, g3, g4, g5, g6⟩ := I.reader _ _ hr
      split at h
      · cases h
      · split at h
        · rename_i d _ hd
          rw [← key _ _ _ _ (Option.some.inj h)]
          refine ⟨by rw [List.length_append, List.length_singleton]; omega, fun h0 => ?_⟩
          rcases List.mem_append.1 h0 with h0 | h0
          · exact g6 0 h0 rfl
          · exact hd (List.mem_singleton.1 h0).symm
        · rw [← key _ _ _ _ (Option.some.inj h)]
          exact ⟨by omega, fun h0 => g6 0 h0 rfl⟩

/-- `Add` fails for null and if there are seven hooks, and in no other case. -/
theorem add_exact {first : List Nat} {s0 s s' : St} (hi : Init first s0) {tr : List (Ev × Out)} (h0 : Exec s0 tr s) {t v : Nat} {o : Out}
    (h : step s (.add t v) = some (s', o)) (hv : v ≠ 0) :
    o = .added t v false ↔ first.length + adds (fun _ => true) tr = 7 + removes (fun _ => true) tr := by
  have I := h0.inv hi.inv
  have hc := h0.count hi.inv fun _ => true
  rw [(hi.facts fun _ => true).1, (hi.facts fun _ => true).2] at hc
  simp only [HookList.step] at h
  rw [if_neg hv] at h
  split at h
  · cases h
  rename_i hl
  have hl : s.lock = none := by cases hh : s.lock <;> simp_all
  rw [hl] at hc
  simp only [pendA, pendR] at hc
  have h1 : first.countP (fun _ => true) = first.length := congrFun List.countP_true first
  have hle : cnt (fun _ => true) s.data ≤ s.data.length := List.countP_le_length
  have hiff : s.data.findIdx (· == 0) = maxValues ↔ cnt (fun _ => true) s.data = 7 := by
    have hlen := I.len
    have hmax : maxValues = s.data.length := hlen.symm
    rw [hmax, List.findIdx_eq_length, ← hlen]
    unfold cnt
    rw [List.countP_eq_length]
    constructor
    · intro hh a ha; have := hh a ha; simpa using this
    · intro hh a ha; have := hh a ha; simpa using this
  split at h
  · rename_i h7
    have := hiff.1 h7
    cases h
    exact ⟨fun _ => by omega, fun _ => rfl⟩
  · rename_i h7
    have : ¬ cnt (fun _ => true) s.data = 7 := fun hh => h7 (hiff.2 hh)
    cases h
    exact ⟨fun hh => (by cases hh), fun hh => by omega⟩

/-- `Remove` fails if the hook is not in the list, and in no other case. -/
theorem remove_exact {first : List Nat} {s0 s s' : St} (hi : Init first s0) {tr : List (Ev × Out)} (h0 : Exec s0 tr s) {t v : Nat} {o : Out}
    (h : step s (.remove t v) = some (s', o)) (hv : v ≠ 0) :
    o = .removed t v false ↔ first.count v + adds (· == v) tr = removes (· == v) tr := by
  have I := h0.inv hi.inv
  have hc := h0.count hi.inv (· == v)
  rw [(hi.facts (· == v)).1, (hi.facts (· == v)).2] at hc
  simp only [HookList.step] at h
  rw [if_neg hv] at h
  split at h
  · cases h
  rename_i hl
  have hl : s.lock = none := by cases hh : s.lock <;> simp_all
  rw [hl] at hc
  simp only [pendA, pendR] at hc
  have h1 : first.countP (· == v) = first.count v := rfl
  have hiff : (s.data.take s.tail).findIdx (· == v) = s.tail ↔ cnt (· == v) s.data = 0 := by
    have hlen := I.len
    have htl : (s.data.take s.tail).length = s.tail := by rw [List.length_take]; have := I.tail; omega
    have : (s.data.take s.tail).findIdx (· == v) = s.tail ↔ (s.data.take s.tail).findIdx (· == v) = (s.data.take s.tail).length := by
      rw [htl]
    rw [this, List.findIdx_eq_length, ← upto_cnt _ hv, hlen, upto_stop (e := s.tail) (fun j hj => I.below hv (by rw [hl]; rfl) hj) 7 I.tail]
    unfold upto
    rw [List.countP_eq_zero]
    constructor
    · intro hh j hj
      have hj := List.mem_range.1 hj
      have hjl : j < s.data.length := by have := I.tail; omega
      have hm : s.data[j] ∈ s.data.take s.tail := List.mem_take_iff_getElem.2 ⟨j, by omega, rfl⟩
      have := hh _ hm
      rw [List.getD_eq_getElem?_getD, List.getElem?_eq_getElem hjl]
      simpa using this
    · intro hh a ha
      obtain ⟨j, hj, rfl⟩ := List.mem_take_iff_getElem.1 ha
      have := hh j (List.mem_range.2 (by omega))
      rw [List.getD_eq_getElem?_getD, List.getElem?_eq_getElem (by omega)] at this
      simpa using this
  split at h
  · rename_i h7
    have := hiff.1 h7
    cases h
    exact ⟨fun _ => by omega, fun _ => rfl⟩
  · rename_i h7
    have : ¬ cnt (· == v) s.data = 0 := fun hh => h7 (hiff.2 hh)
    cases h
    exact ⟨fun hh => (by cases hh), fun hh => by omega⟩

/-- No access is out of bounds: whoever holds the lock or is in `Invoke` can go on. -/
theorem step_defined {first : List Nat} {s0 s : St} (hi : Init first s0) {tr : List (Ev × Out)} (h0 : Exec s0 tr s) :
    (s.lock.isSome = true → (step s .write).isSome = true) ∧ ∀ t, (s.rd t).isSome = true → (step s (.read t)).isSome = true := by
  have I := h0.inv hi.inv
  have hlen := I.len
  refine ⟨fun h => ?_, fun t h => ?_⟩
  · simp only [HookList.step]
    split
    · rename_i hn; rw [hn] at h; cases h
    · rename_i hw
      obtain ⟨h1, h2, h3, h4⟩ := I.writer _ hw
      rw [if_pos (by omega)]
      split <;> rfl
    · rfl
    · rename_i hw
      obtain ⟨h1, h2, h3, h4⟩ := I.writer _ hw
      have := I.tail
      rw [if_pos (by omega)]
      split <;> rfl
    · rfl
  · simp only [HookList.step]
    split
    · rename_i hn; rw [hn] at h; cases h
    · rfl
    · rename_i hr
      obtain ⟨g1, g2, -⟩ := I.reader _ _ hr
      split
      · rename_i hn
        rw [List.getElem?_eq_none_iff] at hn
        omega
      · split <;> rfl

/-- An `Add` or `Remove` that has not failed at once returns true after at most two stores of its own. -/
theorem call_returns {first : List Nat} {s0 s s' : St} (hi : Init first s0) {tr : List (Ev × Out)} (h0 : Exec s0 tr s) {t v : Nat}
    {add : Bool} (h : step s (if add then .add t v else .remove t v) = some (s', .none)) :
    ∃ s1 o1, step s' .write = some (s1, o1) ∧
      let r := if add then Out.added t v true else .removed t v true
      (o1 = r ∨ (o1 = .none ∧ ∃ s2, step s1 .write = some (s2, r))) := by
  have I' : Inv s' := (h0.inv hi.inv).step h
  have hlen := I'.len
  cases add with
  | true =>
    simp only [HookList.step, if_true] at h
    split at h
    · cases h
    split at h
    · cases h
    split at h
    · cases h
    cases h
    obtain ⟨h1, h2, h3, h4⟩ := I'.writer _ rfl
    have h2' : s.data.findIdx (· == 0) < s.data.length := by
      have : s.data.length = 7 := hlen
      omega
    simp only [HookList.step, if_pos h2']
    split
    · exact ⟨_, _, rfl, Or.inr ⟨rfl, _, rfl⟩⟩
    · exact ⟨_, _, rfl, Or.inl rfl⟩
  | false =>
    simp only [HookList.step, Bool.false_eq_true, if_false] at h
    split at h
    · cases h
    split at h
    · cases h
    split at h
    · cases h
    cases h
    obtain ⟨h1, h2, h3, h4⟩ := I'.writer _ rfl
    have ht := I'.tail
    have h2' : (s.data.take s.tail).findIdx (· == v) < s.data.length := by
      have : s.data.length = 7 := hlen
      have ht : s.tail ≤ 7 := ht
      omega
    simp only [HookList.step, if_pos h2']
    split
    · exact ⟨_, _, rfl, Or.inr ⟨rfl, _, rfl⟩⟩
    · exact ⟨_, _, rfl, Or.inl rfl⟩

/-! ### The hypotheses are met -/

def runAll (s : St) : List Ev → Option (St × List (Ev × Out))
  | [] => some (s, [])
  | e :: es => (step s e).bind fun (s', o) => (runAll s' es).map fun (s'', tr) => (s'', (e, o) :: tr)

theorem runAll_exec : ∀ (es : List Ev) {s s' : St} {tr : List (Ev × Out)}, runAll s es = some (s', tr) → Exec s tr s'
  | [], s, s', tr, h => by simp only [runAll, Option.some.injEq, Prod.mk.injEq] at h; rw [← h.1, ← h.2]; exact .nil _
  | e :: es, s, s', tr, h => by
    simp only [runAll] at h
    obtain ⟨⟨x, o⟩, h1, h2⟩ := Option.bind_eq_some_iff.1 h
    obtain ⟨⟨y, tr'⟩, h3, h4⟩ := Option.map_eq_some_iff.1 h2
    simp only [Prod.mk.injEq] at h4
    rw [← h4.1, ← h4.2]
    exact .cons h1 (runAll_exec es h3)

def prep : List Ev := [.add 0 11, .write, .write, .add 0 22, .write, .write, .add 0 11, .write, .write]

/-- Hook 22 is removed and 33 added while thread 5 is reading; it calls 11 twice. -/
def race : List Ev := [.invoke 5, .remove 1 22, .read 5, .write, .read 5, .add 1 33, .write, .read 5, .read 5]

theorem prep_some : (runAll empty prep).isSome = true := by decide
def s1 : St := ((runAll empty prep).get prep_some).1
def tr1 : List (Ev × Out) := ((runAll empty prep).get prep_some).2
theorem race_some : (runAll s1 race).isSome = true := by decide
def tr2 : List (Ev × Out) := ((runAll s1 race).get race_some).2

example : List.count 11 [11, 33, 11] + removes (· == 11) tr1 = List.count 11 [] + adds (· == 11) tr1 :=
  invoke_exact (first := []) (Or.inl ⟨rfl, rfl⟩) (runAll_exec prep (Option.some_get prep_some).symm)
    (runAll_exec race (Option.some_get race_some).symm) (t := 5) (l := [11, 33, 11]) ⟨by decide, by decide, by decide⟩ (by decide)
    (by show (_ : Nat) = _; decide) (by decide)

example : adds (· == 11) tr1 = 2 ∧ removes (· == 22) tr2 = 1 ∧ adds (· == 33) tr2 = 1 := by decide

/-- Seven hooks fit, and an eighth does not. -/
example : (runAll (single 9) ((List.range 6).flatMap (fun i => [.add 0 (i + 1), .write, .write]) ++ [.add 0 8])).map (·.2.getLast?) =
    some (some (.add 0 8, .added 0 8 false)) := by decide

def moving : List Ev := [.invoke 5, .read 5, .add 1 9, .write, .write, .remove 1 9, .write, .read 5]
theorem moving_some : (runAll (single 9) moving).isSome = true := by decide
def tr3 : List (Ev × Out) := ((runAll (single 9) moving).get moving_some).2

/-- The hypothesis about `v` itself is needed: `Add(v)` and then `Remove(v)` in the meantime move it to another slot, and an
`Invoke` may miss it, although it is in the list all the time. -/
theorem moved_hook_missed : ∃ s', Exec (single 9) tr3 s' ∧ InvokeTrace 5 tr3 [] ∧
    ∀ k, removes (· == 9) (tr3.take k) < 1 + adds (· == 9) (tr3.take k) := by
  refine ⟨_, runAll_exec _ (Option.some_get moving_some).symm, ⟨by decide, by decide, by decide⟩, fun k => ?_⟩
  by_cases hk : k < 8
  · revert k; decide
  · rw [List.take_of_length_le (by have : tr3.length = 8 := by decide
                                   omega)]
    decide

end Verif.HookList
