import Verif.Settings.Lemmas
/-!
# Settings: the theorems (C83)
-/
namespace Verif.Settings

/-! ## Reading back -/

/-- C83, in part.  Whatever threads do, and in whatever order, a getter returns the value the setting was last given,
cut to its range as documented, or its starting value if it was given none.  In particular the initialisation that the
first access runs never undoes a set, and no caller sees a setting before it is initialised.

What is missing: it is assumed of the settings that the allocator's setting itself up writes, at most five, that this is
over, and came before the program's first set (`Settled`).  Without it the claim is false: `limit_before_setUp`,
`soft_limit_faults`, `cpu_cache_size_lost`. -/
theorem get_last_set_partial {env : Env} (hE : env.Sane) {s : St} (h : Reach env s) {l2 l1 : List Entry} {k : Key}
    {x : Val} (hl : s.log = l2 ++ .got k x :: l1) (hs : Settled env l1 k) : x = expect env l1 k :=
  (h.inv hE).core.got l2 l1 k x hl hs

/-- For the twelve settings that are not among these the claim holds outright; and for three more unless an experiment is
on or the CPU count cannot be read. -/
theorem get_last_set {env : Env} (hE : env.Sane) {s : St} (h : Reach env s) {l2 l1 : List Entry} {k : Key}
    {x : Val} (hl : s.log = l2 ++ .got k x :: l1)
    (hk : k ≠ .softLimit ∧ k ≠ .hardLimit) (h1 : k = .cpuCache → env.expCache1MB = false)
    (h2 : k = .minHot → env.expPgho = false) (h3 : k = .perCpu → env.cpusKnown = true) : x = expect env l1 k := by
  refine get_last_set_partial hE h hl (Or.inl ?_)
  obtain ⟨h4, h5⟩ := hk
  cases k <;> simp_all [setUpWrites]

/-- Durations survive a set to within a nanosecond, and exactly if they are whole nanoseconds that fit 64 bits. -/
theorem duration_kept (q : Int) (h : 4 * (-maxI64 - 1) ≤ q ∧ q ≤ 4 * maxI64) :
    ∃ r, cutDur (.fin q) = .fin r ∧ (q - r < 4 ∧ r - q < 4) ∧ (q % 4 = 0 → r = q) ∧ (0 ≤ q → 0 ≤ r ∧ r ≤ q) ∧
      (q ≤ 0 → q ≤ r ∧ r ≤ 0) := by
  refine ⟨q - q.tmod 4, ?_, ?_, ?_, ?_, ?_⟩
  · simp only [cutDur]; rw [if_neg (by omega), if_neg (by omega)]
  all_goals
    have hm : maxI64 = 9223372036854775807 := rfl
    by_cases hq : 0 ≤ q
    · have := Int.tmod_eq_emod_of_nonneg (b := 4) hq
      omega
    · have h2 : q.tmod 4 = -((-q).tmod 4) := by rw [Int.neg_tmod]; omega
      have := Int.tmod_eq_emod_of_nonneg (a := -q) (b := 4) (by omega)
      omega

/-- Undefined behaviour happens only before the allocator has set itself up. -/
theorem no_fault_once_set_up {env : Env} (hE : env.Sane) {s : St} (h : Reach env s) (hi : .inited ∈ s.log) :
    s.fault = false := by
  have hinv : ∀ (as : List Act) (s0 s1 : St), (s0.fault = true → s0.inited = false) → run env s0 as = some s1 →
      (s1.fault = true → s1.inited = false) := by
    intro as
    induction as with
    | nil => intro s0 s1 h0 hr; simp only [run] at hr; injection hr with hr; subst hr; exact h0
    | cons a as ih =>
      intro s0 s1 h0 hr
      simp only [run] at hr
      split at hr
      · cases hr
      · rename_i s2 h2
        refine ih s2 s1 ?_ hr
        clear ih hr
        intro hf
        have hsetf : (setUp env s0).fault = s0.fault := by simp only [setUp]; split <;> rfl
        cases a with
        | call t c =>
          simp only [step] at h2
          split at h2
          · rename_i hc; injection h2 with h2; subst h2; rw [hc.1] at hf; cases hf
          · cases h2
        | tick t =>
          simp only [step] at h2
          split at h2
          · cases h2
          · rename_i hnf
            have hnf : s0.fault = false := by simpa using hnf
            split at h2
            · cases h2
            · split at h2
              · injection h2 with h2; subst h2; simp [hnf] at hf
              · split at h2
                · split at h2
                  · injection h2 with h2; subst h2; simp [hnf] at hf
                  · cases h2
                  · injection h2 with h2; subst h2; simp [hnf] at hf
                · injection h2 with h2; subst h2; simp [hnf] at hf
            · injection h2 with h2; subst h2; simp [hnf] at hf
            · injection h2 with h2; subst h2; simp [hnf] at hf
            · rename_i c _
              injection h2 with h2; subst h2
              cases c with
              | get k => simp [doAct, hnf] at hf
              | alloc => simp [doAct, hsetf, hnf] at hf
              | limitHard v =>
                simp only [doAct] at hf
                split at hf <;> simp [write, hsetf, hnf] at hf
              | set k v =>
                simp only [doAct] at hf ⊢
                split at hf
                · split at hf <;> simp [write, hsetf, hnf] at hf
                · rename_i h1
                  split at hf
                  · rename_i h2
                    split at hf
                    · simp [write, hnf] at hf
                    · rename_i h3
                      simp [h2, h3]
                  · split at hf <;> simp [write, hnf] at hf
            · injection h2 with h2; subst h2; simp [write, hnf] at hf
            · injection h2 with h2; subst h2; simp [hnf] at hf
  have hc := (h.inv hE).core
  obtain ⟨as, hr⟩ := h
  cases hf : s.fault with
  | false => rfl
  | true =>
    have h1 := hinv as _ _ (by intro h; cases h) hr hf
    exact absurd hi (hc.pre h1).1

/-! ### Where the claim fails -/

/-- An ordinary build. -/
def env0 : Env :=
  { perThread := false, smallButSlow := false, debug := false, mayDisableSlabs := false, cpusKnown := true,
    subrelease := true, expCache1MB := false, expPgho := false, expMadvise := false, expAdaptive := false,
    cpuCacheSize := 1572864, threadCacheSize := 33554432, minThreadCache := 524288 }

theorem env0_sane : env0.Sane := by simp only [Env.Sane]; decide

def logOf (env : Env) (as : List Act) : Option (List Entry) := (run env (init env) as).map (·.log)

/-- A thread makes a call to its end, when no first access is involved. -/
def quick (t : Nat) (c : Call) : List Act := [.call t c, .tick t, .tick t]

/-- Before the first allocation `GetMemoryLimit` says 0; after it, no limit.  Nobody set one. -/
theorem limit_before_setUp :
    logOf env0 (quick 0 (.get .softLimit) ++ quick 0 .alloc ++ quick 0 (.get .softLimit)) =
      some [.got .softLimit (.int maxU64), .inited, .got .softLimit (.int 0)] := by decide +kernel

/-- `SetMemoryLimit` of the soft kind as the first thing a process does is undefined behaviour: a call through a null
pointer. -/
theorem soft_limit_faults :
    ((run env0 (init env0) (quick 0 (.set .softLimit (.int 1073741824)))).map (·.fault)) = some true := by
  decide +kernel

/-- With the experiment on, the size a program gives its per-CPU caches before its first allocation is lost. -/
theorem cpu_cache_size_lost :
    logOf { env0 with expCache1MB := true }
        (quick 0 (.set .cpuCache (.int 65536)) ++ quick 0 .alloc ++ quick 0 (.get .cpuCache)) =
      some [.got .cpuCache (.int 1048576), .inited, .wrote .cpuCache (.int 65536)] := by decide +kernel

/-- The same for the hotness threshold. -/
theorem min_hot_lost :
    logOf { env0 with expPgho := true }
        (quick 0 (.set .minHot (.int 100)) ++ quick 0 .alloc ++ quick 0 (.get .minHot)) =
      some [.got .minHot (.int 2), .inited, .wrote .minHot (.int 100)] := by decide +kernel

/-- One `SetMemoryLimit(hard)` call writes the limit twice.  With one call for 1 GiB and one for 2 GiB a third thread can
read 1, 2 and then 1 again, the last when the call for 2 is long over: no order of the two calls explains it. -/
theorem hard_limit_flips :
    logOf env0 (quick 0 .alloc ++
      [.call 1 (.limitHard (.int 1073741824)), .tick 1, .tick 1] ++ quick 3 (.get .hardLimit) ++
      [.call 2 (.limitHard (.int 2147483648)), .tick 2, .tick 2, .tick 2] ++ quick 3 (.get .hardLimit) ++
      [.tick 1] ++ quick 3 (.get .hardLimit)) =
      some [.got .hardLimit (.int 1073741824), .wrote .hardLimit (.int 1073741824), .got .hardLimit (.int 2147483648),
        .wrote .hardLimit (.int 2147483648), .wrote .hardLimit (.int 2147483648), .got .hardLimit (.int 1073741824),
        .wrote .hardLimit (.int 1073741824), .inited] := by decide +kernel

/-! ### The hypotheses are met -/

/-- Thread 0 is inside the first access to the sleep interval while thread 1 sets it: the setter waits, and its value is
the one read afterwards. -/
theorem first_access_race :
    logOf env0 ([.call 0 (.get .bgSleep), .tick 0, .call 1 (.set .bgSleep (.dur (.fin (7 * second + 3)))), .tick 0, .tick 0,
      .tick 1, .tick 1, .tick 0, .call 0 (.get .bgSleep), .tick 0, .tick 0]) =
      some [.got .bgSleep (.dur (.fin (7 * second))), .got .bgSleep (.dur (.fin (7 * second))),
        .wrote .bgSleep (.dur (.fin (7 * second + 3)))] := by decide +kernel

/-- While the first access is under way, the setter cannot go on. -/
example : (run env0 (init env0) [.call 0 (.get .bgSleep), .tick 0, .call 1 (.set .bgSleep (.dur .inf)), .tick 1]).isNone =
    true := by decide +kernel

example : expect env0 [.wrote .bgSleep (.dur (.fin (7 * second + 3)))] .bgSleep = .dur (.fin (7 * second)) := by
  decide +kernel

/-- A hard limit holds the soft one down, 0 lifts it, and a refused change changes nothing. -/
example : expect env0 [.wrote .hardLimit (.int 100), .wrote .softLimit (.int 500)] .softLimit = .int 100 := by decide +kernel
example : expect env0 [.wrote .hardLimit (.int 0), .wrote .hardLimit (.int 100)] .hardLimit = .int maxU64 := by decide +kernel
example : expect env0 [.wrote .perCpu (.int 0)] .perCpu = .int 1 := by decide +kernel
example : expect env0 [.wrote .cpuCache (.int (-1))] .cpuCache = .int (-1) := by decide +kernel

example : Settled env0 [.wrote .softLimit (.int 500), .inited, .wrote .sampling (.int 3)] .softLimit :=
  Or.inr ⟨[.wrote .softLimit (.int 500)], [.wrote .sampling (.int 3)], rfl, by simp⟩

/-! ## The thread-cache limit in effect -/

/-- The total thread-cache size that a limit of `i` puts in effect: `i` as an unsigned 64-bit number, but no less than the
least the build allows. -/
def applied (env : Env) : Val → Int
  | .int i => max (env.minThreadCache : Int) (i % 18446744073709551616)
  | .dur _ => 0

/-- The thread is inside `SetMaxTotalThreadCacheBytes`. -/
def limiting (s : St) (t : Nat) : Prop :=
  (∃ v, s.pc t = .enter (.set .threadCache v) ∨ s.pc t = .act (.set .threadCache v)) ∨ ∃ i, s.pc t = .apply i

/-- States reached by schedules in which two calls of `SetMaxTotalThreadCacheBytes` never overlap. -/
inductive ReachSerial (env : Env) : St → Prop where
  | init : ReachSerial env (init env)
  | step {s s' : St} {a : Act} : ReachSerial env s → step env s a = some s' →
      (∀ t u, limiting s' t → limiting s' u → t = u) → ReachSerial env s'

theorem setUp_expect (env : Env) (s : St) (k : Key) : expect env (setUp env s).log k = expect env s.log k := by
  simp only [setUp]; split <;> rfl

theorem expect_wrote_ne {env : Env} {k : Key} {v : Val} {l : List Entry} (h : k ≠ .threadCache) :
    expect env (.wrote k v :: l) .threadCache = expect env l .threadCache := by
  rw [expect]
  split
  · rfl
  · rw [if_neg (fun e => h e.symm), if_neg (by simp)]

/-- What serial schedules keep. -/
structure SerialInv (env : Env) (s : St) : Prop where
  applying : ∀ t i, s.pc t = .apply i → expect env s.log .threadCache = .int i
  atRest : (∀ t i, s.pc t ≠ .apply i) → s.eff = applied env (expect env s.log .threadCache)
  serial : ∀ t u, limiting s t → limiting s u → t = u
  typed : ∀ t c, s.pc t = .enter c ∨ s.pc t = .act c ∨ (∃ k, s.pc t = .storing k c) ∨ (∃ k, s.pc t = .marking k c) →
    c.Typed

theorem SerialInv.keep {env : Env} {s s' : St} (h : SerialInv env s) (t : Nat) (p : PC) (hpc : s'.pc = updN s.pc t p)
    (heff : s'.eff = s.eff) (hexp : expect env s'.log .threadCache = expect env s.log .threadCache)
    (hold : ∀ i, s.pc t ≠ .apply i) (hnew : ∀ i, p ≠ .apply i)
    (hser : ∀ t u, limiting s' t → limiting s' u → t = u)
    (htyp : ∀ c, p = .enter c ∨ p = .act c ∨ (∃ k, p = .storing k c) ∨ (∃ k, p = .marking k c) → c.Typed) :
    SerialInv env s' := by
  refine ⟨?_, ?_, hser, ?_⟩
  · intro u i hu
    rw [hpc] at hu
    by_cases e : u = t
    · rw [e, updN_self] at hu; exact absurd hu (hnew i)
    · rw [updN_ne _ _ e] at hu
      rw [hexp]; exact h.applying u i hu
  · intro hq
    rw [heff, hexp]
    refine h.atRest fun u i hu => ?_
    by_cases e : u = t
    · rw [e] at hu; exact hold i hu
    · exact hq u i (by rw [hpc, updN_ne _ _ e]; exact hu)
  · intro u c hu
    rw [hpc] at hu
    by_cases e : u = t
    · rw [e, updN_self] at hu; exact htyp c hu
    · rw [updN_ne _ _ e] at hu; exact h.typed u c hu

theorem updN_same {α : Type} (f : Nat → α) (t : Nat) : updN f t (f t) = f := by
  funext u; by_cases e : u = t <;> simp [updN, e]

theorem SerialInv.step {env : Env} {s s' : St} (h : SerialInv env s) {a : Act} (hs : step env s a = some s')
    (hser : ∀ t u, limiting s' t → limiting s' u → t = u) : SerialInv env s' := by
  cases a with
  | call t c =>
    simp only [Settings.step] at hs
    split at hs
    · rename_i hc
      injection hs with hs; subst hs
      exact h.keep t (.enter c) rfl rfl rfl (by simp [hc.2.1]) (by simp) hser (by
        intro c' hc'; simp at hc'; subst hc'; exact hc.2.2)
    · cases hs
  | tick t =>
    simp only [Settings.step] at hs
    split at hs
    · cases hs
    · split at hs
      · cases hs
      · rename_i c hp
        have hty := h.typed t c (Or.inl hp)
        split at hs
        · injection hs with hs; subst hs
          exact h.keep t (.act c) rfl rfl rfl (by simp [hp]) (by simp) hser (by
            intro c' hc'; simp at hc'; subst hc'; exact hty)
        · split at hs
          · split at hs
            · injection hs with hs; subst hs
              exact h.keep t (.storing _ c) rfl rfl rfl (by simp [hp]) (by simp) hser (by
                intro c' hc'; simp at hc'; subst hc'; exact hty)
            · cases hs
            · injection hs with hs; subst hs
              exact h.keep t (.act c) rfl rfl rfl (by simp [hp]) (by simp) hser (by
                intro c' hc'; simp at hc'; subst hc'; exact hty)
          · injection hs with hs; subst hs
            exact h.keep t (.act c) rfl rfl rfl (by simp [hp]) (by simp) hser (by
              intro c' hc'; simp at hc'; subst hc'; exact hty)
      · rename_i k c hp
        have hty := h.typed t c (Or.inr (Or.inr (Or.inl ⟨k, hp⟩)))
        injection hs with hs; subst hs
        exact h.keep t (.marking k c) rfl rfl rfl (by simp [hp]) (by simp) hser (by
          intro c' hc'; simp at hc'; subst hc'; exact hty)
      · rename_i k c hp
        have hty := h.typed t c (Or.inr (Or.inr (Or.inr ⟨k, hp⟩)))
        injection hs with hs; subst hs
        exact h.keep t (.act c) rfl rfl rfl (by simp [hp]) (by simp) hser (by
          intro c' hc'; simp at hc'; subst hc'; exact hty)
      · rename_i c hp
        have hty := h.typed t c (Or.inr (Or.inl hp))
        have hsetPc : (setUp env s).pc = s.pc := by simp only [setUp]; split <;> rfl
        have hsetEff : (setUp env s).eff = s.eff := by simp only [setUp]; split <;> rfl
        have hstay : (∀ t u, limiting (setUp env s) t → limiting (setUp env s) u → t = u) → SerialInv env (setUp env s) :=
          fun hser => h.keep t (.act c) (by rw [hsetPc, ← hp, updN_same]) hsetEff (setUp_expect env s _) (by simp [hp])
            (by simp) hser (by intro c' hc'; simp at hc'; subst hc'; exact hty)
        injection hs with hs; subst hs
        cases c with
        | get k => exact h.keep t .idle rfl rfl rfl (by simp [hp]) (by simp) hser (by simp)
        | alloc => exact h.keep t .idle rfl hsetEff (setUp_expect env s _) (by simp [hp]) (by simp) hser (by simp)
        | limitHard v =>
          simp only [doAct] at hser ⊢
          split
          · rename_i hi
            rw [if_pos hi] at hser
            exact h.keep t (.again v) rfl rfl (expect_wrote_ne (by simp)) (by simp [hp]) (by simp) hser (by simp)
          · rename_i hi
            rw [if_neg hi] at hser
            exact hstay hser
        | set k v =>
          simp only [doAct] at hser ⊢
          by_cases h1 : k = .hardLimit
          · simp only [if_pos h1] at hser ⊢
            subst h1
            split
            · rename_i hi
              rw [if_pos hi] at hser
              exact h.keep t .idle rfl rfl (expect_wrote_ne (by simp)) (by simp [hp]) (by simp) hser (by simp)
            · rename_i hi
              rw [if_neg hi] at hser
              exact hstay hser
          · simp only [if_neg h1] at hser ⊢
            by_cases h2 : k = .softLimit
            · simp only [if_pos h2] at hser ⊢
              subst h2
              split
              · rename_i hi
                rw [if_pos hi] at hser
                exact h.keep t .idle rfl rfl (expect_wrote_ne (by simp)) (by simp [hp]) (by simp) hser (by simp)
              · rename_i hi
                rw [if_neg hi] at hser
                exact h.keep t (.act (.set .softLimit v)) (by show s.pc = _; rw [← hp, updN_same]) rfl rfl (by simp [hp]) (by simp) hser (by
                  intro c' hc'; simp at hc'; subst hc'; exact hty)
            · simp only [if_neg h2] at hser ⊢
              by_cases h3 : k = .threadCache
              · simp only [if_pos h3] at hser ⊢
                subst h3
                cases v with
                | dur d => exact absurd hty (by simp [Call.Typed, WellTyped])
                | int i =>
                  refine ⟨?_, ?_, hser, ?_⟩
                  · intro u i' hu
                    have hu : updN s.pc t (.apply i) u = .apply i' := hu
                    by_cases e : u = t
                    · rw [e, updN_self] at hu
                      injection hu with hu; subst hu
                      show expect env (.wrote .threadCache (.int i) :: s.log) .threadCache = _
                      simp [expect, readBack]
                    · rw [updN_ne _ _ e] at hu
                      exact absurd (h.serial u t (Or.inr ⟨i', hu⟩) (Or.inl ⟨_, Or.inr hp⟩)) e
                  · intro hq
                    exact absurd (updN_self s.pc t (.apply i)) (hq t i)
                  · intro u c' hu
                    have hu : updN s.pc t (.apply i) u = .enter c' ∨ updN s.pc t (.apply i) u = .act c' ∨
                      (∃ k, updN s.pc t (.apply i) u = .storing k c') ∨ (∃ k, updN s.pc t (.apply i) u = .marking k c') := hu
                    by_cases e : u = t
                    · rw [e, updN_self] at hu; simp at hu
                    · rw [updN_ne _ _ e] at hu; exact h.typed u c' hu
              · simp only [if_neg h3] at hser ⊢
                exact h.keep t .idle rfl rfl (expect_wrote_ne h3) (by simp [hp]) (by simp) hser (by simp)
      · rename_i v hp
        injection hs with hs; subst hs
        exact h.keep t .idle rfl rfl (expect_wrote_ne (by simp)) (by simp [hp]) (by simp) hser (by simp)
      · rename_i i hp
        injection hs with hs; subst hs
        refine ⟨?_, ?_, hser, ?_⟩
        · intro u i' hu
          have hu : updN s.pc t .idle u = .apply i' := hu
          by_cases e : u = t
          · rw [e, updN_self] at hu; cases hu
          · rw [updN_ne _ _ e] at hu; exact h.applying u i' hu
        · intro _
          show (if i % 18446744073709551616 < (env.minThreadCache : Int) then (env.minThreadCache : Int)
            else i % 18446744073709551616) = applied env (expect env s.log .threadCache)
          rw [h.applying t i hp]
          simp only [applied]
          split <;> omega
        · intro u c' hu
          have hu : updN s.pc t .idle u = .enter c' ∨ updN s.pc t .idle u = .act c' ∨
            (∃ k, updN s.pc t .idle u = .storing k c') ∨ (∃ k, updN s.pc t .idle u = .marking k c') := hu
          by_cases e : u = t
          · rw [e, updN_self] at hu; simp at hu
          · rw [updN_ne _ _ e] at hu; exact h.typed u c' hu

/-- C83, in part: if calls of `SetMaxTotalThreadCacheBytes` do not overlap, then between them the limit in effect is the
one that reads back.  Without that it is false: `thread_cache_limit_parts`. -/
theorem thread_cache_limit_partial {env : Env} (hE : (env.minThreadCache : Int) ≤ env.threadCacheSize)
    (hE2 : (env.threadCacheSize : Int) < 18446744073709551616) {s : St} (h : ReachSerial env s)
    (hq : ∀ t i, s.pc t ≠ .apply i) : s.eff = applied env (expect env s.log .threadCache) := by
  have key : SerialInv env s := by
    clear hq
    induction h with
    | init =>
      refine ⟨?_, ?_, ?_, ?_⟩
      · intro t i h; cases h
      · intro _; simp only [init, expect, start, applied]; omega
      · rintro t u (⟨v, h | h⟩ | ⟨i, h⟩) <;> cases h
      · rintro t c (h | h | ⟨k, h⟩ | ⟨k, h⟩) <;> cases h
    | step _ hs hser ih => exact ih.step hs hser
  exact key.atRest hq

theorem serial_of_others_idle {s : St} {t : Nat} (h : ∀ u, u ≠ t → s.pc u = .idle) :
    ∀ a b, limiting s a → limiting s b → a = b := by
  have : ∀ a, limiting s a → a = t := by
    intro a ha
    by_cases e : a = t
    · exact e
    · have := h a e
      rcases ha with ⟨v, ha | ha⟩ | ⟨i, ha⟩ <;> rw [this] at ha <;> cases ha
  intro a b ha hb
  rw [this a ha, this b hb]

/-- A call on its own is such a schedule, and puts its limit in effect. -/
example : ∃ s, ReachSerial env0 s ∧ (∀ t i, s.pc t ≠ .apply i) ∧ s.eff = 1048576 ∧
    expect env0 s.log .threadCache = .int 1048576 := by
  have h1 := (ReachSerial.init (env := env0)).step (a := .call 1 (.set .threadCache (.int 1048576))) rfl
    (serial_of_others_idle (t := 1) (by intro u hu; simp [updN, hu, init]))
  have h2 := h1.step (a := .tick 1) rfl (serial_of_others_idle (t := 1) (by intro u hu; simp [updN, hu, init]))
  have h3 := h2.step (a := .tick 1) rfl
    (serial_of_others_idle (t := 1) (by intro u hu; simp [updN, hu, init, doAct]))
  have h4 := h3.step (a := .tick 1) rfl (serial_of_others_idle (t := 1) (by intro u hu; simp [updN, hu, init, doAct]))
  refine ⟨_, h4, ?_, by decide +kernel, by decide +kernel⟩
  intro t i
  by_cases e : t = 1 <;> simp [updN, e, init, doAct]

/-- Two overlapping calls, for 1 MiB and for 4 MiB: when both are over, 4 MiB reads back and 1 MiB is in effect. -/
theorem thread_cache_limit_parts :
    ((run env0 (init env0)
      [.call 1 (.set .threadCache (.int 1048576)), .tick 1, .tick 1,
       .call 2 (.set .threadCache (.int 4194304)), .tick 2, .tick 2, .tick 2, .tick 1]).map
        fun s => (s.vals .threadCache, s.eff, s.pc 1, s.pc 2)) = some (4194304, 1048576, .idle, .idle) := by
  decide +kernel

/-- A negative limit reads back as given and means no limit at all. -/
theorem thread_cache_limit_negative :
    ((run env0 (init env0) [.call 1 (.set .threadCache (.int (-1))), .tick 1, .tick 1, .tick 1]).map
        fun s => (s.vals .threadCache, s.eff)) = some (-1, maxU64) := by decide +kernel

/-! ## What the environment decides -/

/-- The partitioning variable: off for `0` and for `false` in any case, light for `2` and for `light` in any case, full
for anything else, even the empty string. -/
theorem partitioning_set (experiment linked : Bool) (p : Nat) (hp : p ≠ 1) (e : List UInt8) :
    (partitioning p experiment linked (some e) = .off ↔
      e = "0".toUTF8.toList ∨ e.map lower = "false".toUTF8.toList) ∧
    (partitioning p experiment linked (some e) = .light ↔
      e = "2".toUTF8.toList ∨ e.map lower = "light".toUTF8.toList) := by
  have h1 : "0".toUTF8.toList = sZero := by decide +kernel
  have h2 : "false".toUTF8.toList = sFalse := by decide +kernel
  have h3 : "2".toUTF8.toList = sTwo := by decide +kernel
  have h4 : "light".toUTF8.toList = sLight := by decide +kernel
  have h5 : sFalse.map lower = sFalse := by decide +kernel
  have h6 : sLight.map lower = sLight := by decide +kernel
  rw [h1, h2, h3, h4]
  simp only [partitioning, if_neg hp, caseEq, h5, h6]
  by_cases a : e = sZero
  · subst a; decide +kernel +revert
  by_cases b : e = sTwo
  · subst b; decide +kernel +revert
  by_cases c : e.map lower = sFalse
  · have : sFalse ≠ sLight := by decide +kernel
    simp [c, b, this]
  by_cases d : e.map lower = sLight
  · have : sLight ≠ sFalse := by decide +kernel
    simp [d, a, b, this]
  simp [a, b, c, d]

/-- Unset, it is the experiment and the linked default that decide; with one partition it is always off. -/
theorem partitioning_unset (experiment linked : Bool) (p : Nat) :
    partitioning p experiment linked none = (if p ≠ 1 ∧ (experiment = true ∨ linked = true) then .full else .off) := by
  by_cases h : p = 1 <;> cases experiment <;> cases linked <;> simp [partitioning, h]

theorem partitioning_single (experiment linked : Bool) (e : Option (List UInt8)) :
    partitioning 1 experiment linked e = .off := by simp [partitioning]

example : partitioning 2 false false (some "LiGhT".toUTF8.toList) = .light := by decide +kernel
example : partitioning 2 false false (some []) = .full := by decide +kernel

/-- The subrelease variable: only its first byte counts; the process dies unless that is `0`, `1` or `2`, and so it does
if the variable is set but empty. -/
theorem subrelease_decided (e : Option (List UInt8)) (linked : Option Int) :
    (decideSubrelease e linked = none ↔
      ∃ s, e = some s ∧ s.head? ≠ some 48 ∧ s.head? ≠ some 49 ∧ s.head? ≠ some 50) ∧
    (decideSubrelease e linked = some false ↔
      (∃ s, e = some (49 :: s)) ∨ ((e = none ∨ ∃ s, e = some (48 :: s)) ∧ ∃ d, linked = some d ∧ d < 0)) := by
  have hrest : linkedSubrelease linked = false ↔ ∃ d, linked = some d ∧ d < 0 := by
    cases linked with
    | none => simp [linkedSubrelease]
    | some d =>
      simp only [Option.some.injEq, exists_eq_left', linkedSubrelease]
      by_cases h : d = 0
      · simp [h]
      · simp [h]; omega
  cases e with
  | none => simp only [decideSubrelease]; simp [hrest]
  | some s =>
    cases s with
    | nil => simp [decideSubrelease]
    | cons c s =>
      by_cases h48 : c = 48
      · subst h48; simp [decideSubrelease, hrest]
      by_cases h49 : c = 49
      · subst h49; simp [decideSubrelease]
      by_cases h50 : c = 50
      · subst h50; simp [decideSubrelease]
      simp [decideSubrelease, h48, h49, h50]

end Verif.Settings
