import Verif.Background.Amount
/-! C80 and C81: the background thread's schedule (`runs_iff` and `pass_order` in Timing) and what it asks to be released. -/
namespace Verif.Background

/-! ### How much a pass asks for -/

theorem toSsize_nonneg {x : Rat} (h0 : 0 ≤ x) (h1 : x < 2 ^ 63) : toSsize x = some x.floor := by
  unfold toSsize
  rw [if_pos h0]
  have a : (0 : Int) ≤ x.floor := Rat.le_floor_iff.2 h0
  have b : x.floor < 2 ^ 63 := by
    rw [Rat.floor_lt_iff]
    have e : ((2 ^ 63 : Int) : Rat) = 2 ^ 63 := by decide +kernel
    rw [e]; exact h1
  rw [if_pos ⟨by omega, b⟩]

theorem toSsize_big {x : Rat} (h : 2 ^ 63 ≤ x) : toSsize x = none := by
  unfold toSsize
  have h0 : 0 ≤ x := by grind
  rw [if_pos h0]
  have b : ¬ x.floor < 2 ^ 63 := by
    rw [Rat.floor_lt_iff]
    have e : ((2 ^ 63 : Int) : Rat) = 2 ^ 63 := by decide +kernel
    rw [e]; exact Rat.not_lt.2 h
  rw [if_neg (fun h => b h.2)]

theorem toSsize_small {x : Rat} (h : x ≤ -(2 ^ 63) - 1) : toSsize x = none := by
  unfold toSsize
  have h0 : ¬ 0 ≤ x := by grind
  simp only [h0, if_false]
  have b : ¬ -(2 ^ 63) ≤ x.ceil := by
    have : x.ceil ≤ (-(2 ^ 63) - 1 : Int) := by
      rw [Rat.ceil_le_iff]
      have e : ((-(2 ^ 63) - 1 : Int) : Rat) = -(2 ^ 63) - 1 := by decide +kernel
      rw [e]; exact h
    omega
  rw [if_neg (fun h => b h.1)]

theorem toSsize_neg {x : Rat} (h : x ≤ 0) {n : Int} (hn : toSsize x = some n) : n ≤ 0 := by
  unfold toSsize at hn
  split at hn
  · rename_i h0
    have : x = 0 := Rat.le_antisymm h h0
    subst this
    have e : (0 : Rat).floor = 0 := by decide +kernel
    rw [e] at hn
    simp at hn
    omega
  · have : x.ceil ≤ (0 : Int) := by rw [Rat.ceil_le_iff]; exact h
    simp only at hn
    split at hn
    · simp at hn; omega
    · cases hn

theorem toRelease_eq {conv : Rat → Option Int} {rnd : Rat → Rat} (hr : Rounding rnd) (rate : Nat) (el : Int) :
    toRelease conv rnd rate el =
      (conv (if calculated rnd rate el ≥ 2 ^ 63 then 2 ^ 63 else calculated rnd rate el)).map (max · 0) := by
  unfold toRelease
  simp only [hr.top]

theorem bytesOf_pass {conv : Rat → Option Int} {rnd : Rat → Rat} {e : Env} {s s' : State} {as : List Action}
    (h : pass conv rnd e s = .ok (s', as)) :
    ∃ n, toRelease conv rnd e.rate (e.now - s.prev) = some n ∧ 0 ≤ n ∧
      bytesOf as = n ∧ (∀ b, .release b ∈ as ↔ b = n ∧ (b > 0 ∨ e.region = true)) := by
  unfold pass at h
  split at h
  · cases h
  · simp only at h
    split at h
    · cases h
    · rename_i n hn
      simp only [Out.ok.injEq, Prod.mk.injEq] at h
      obtain ⟨_, h2⟩ := h
      have h0 : 0 ≤ n := by
        unfold toRelease at hn
        simp only [Option.map_eq_some_iff] at hn
        obtain ⟨m, _, hm⟩ := hn
        omega
      refine ⟨n, hn, h0, ?_⟩
      -- what comes before the release is no release
      generalize hpre : (due e.perCpu e.now s.drain (30 * e.sleep) .drain).2 ++ (due e.perCpu e.now s.shuffle (5 * e.sleep) .shuffle).2 ++
        (due e.perCpu e.now s.resizeClasses (2 * e.sleep) .resizeClasses).2 ++
        (due (e.perCpu && e.maxCapacity) e.now s.resizeMaxCapacity (29 * e.sleep) .resizeMaxCapacity).2 ++
        (due (e.perCpu && e.dynamicSlab) e.now s.resizeSlab (29 * e.sleep) .resizeSlab).2 ++
        (if e.perCpu = true then [Action.clearTouched] else []) ++ [.plunderSharded] ++
        (due (!e.smallButSlow) e.now s.plunder (5 * e.sleep) .plunder).2 ++
        (due (!e.smallButSlow) e.now s.resizeTransfer (2 * e.sleep) .resizeTransfer).2 ++
        (due true e.now s.treat (5 * e.sleep) (.treat e.collapse)).2 = pre at h2
      have hno : ∀ b, .release b ∉ pre := by
        intro b hb
        have hd : ∀ (on : Bool) (now last period : Int) (a : Action), .release b ∈ (due on now last period a).2 → a = .release b := by
          intro on now last period a h
          unfold due at h
          split at h
          · exact (List.mem_singleton.1 h).symm
          · cases h
        rw [← hpre] at hb
        simp only [List.mem_append] at hb
        rcases hb with ((((((((((h | h) | h) | h) | h) | h) | h) | h) | h) | h)) <;>
          first
            | (have := hd _ _ _ _ _ h; cases this)
            | (split at h <;> simp at h)
            | simp at h
      have hfold : ∀ (l r : List Action), (∀ b, .release b ∉ l) → bytesOf (l ++ r) = bytesOf r := by
        intro l r
        induction l with
        | nil => intro _; rfl
        | cons a l ih =>
          intro hz
          have hl : ∀ b, .release b ∉ l := fun b hb => hz b (List.mem_cons_of_mem _ hb)
          cases a
          case release b => exact absurd List.mem_cons_self (hz b)
          all_goals exact ih hl
      constructor
      · rw [← h2]
        rw [hfold pre _ hno]
        split
        · simp [bytesOf]
        · rename_i hc
          rw [not_or] at hc
          simp only [bytesOf]
          omega
      · intro b
        rw [← h2, List.mem_append]
        constructor
        · rintro (h | h)
          · exact absurd h (hno b)
          · split at h
            · rename_i hc
              simp only [List.mem_singleton, Action.release.injEq] at h
              rw [h]; exact ⟨rfl, hc⟩
            · cases h
        · rintro ⟨rfl, hc⟩
          right
          rw [if_pos hc]
          exact List.mem_singleton.2 rfl

/-- C81: unless the conversion overflows, a pass asks for what the release rate comes to over the time since the last pass, rounded
down, up to the error of `double` arithmetic (one part in 2^51); for nothing if the clock has not advanced or the rate is zero.  It
asks even for nothing if free hugepages of regions are to be released. -/
theorem request_exact {rnd : Rat → Rat} (hr : Rounding rnd) {start : Int} {l : List Env} {h h1 h2 : List (Env × List Action)}
    {p : Env × List Action} (hb : background toSsize rnd start l = .ok h) (hh : h = h1 ++ p :: h2)
    (hrate : p.1.rate < 2 ^ 64) (hel : p.1.now - lastPass start h1 < 2 ^ 64)
    (hel' : -(2 ^ 64) < p.1.now - lastPass start h1) :
    (p.1.now ≤ lastPass start h1 ∨ p.1.rate = 0 → bytesOf p.2 = 0) ∧
    (lastPass start h1 ≤ p.1.now →
      let due := share p.1.rate (p.1.now - lastPass start h1)
      due - due / 2 ^ 51 - 1 < bytesOf p.2 ∧ bytesOf p.2 ≤ due + due / 2 ^ 51) ∧
    (∀ b, .release b ∈ p.2 ↔ b = bytesOf p.2 ∧ (b > 0 ∨ p.1.region = true)) := by
  obtain ⟨s1, s2, hs1, hp⟩ := background_mem hb hh
  obtain ⟨n, hn, h0, hbytes, hmem⟩ := bytesOf_pass hp
  rw [hs1] at hn
  rw [hbytes]
  generalize hel0 : p.1.now - lastPass start h1 = el at *
  rw [toRelease_eq hr] at hn
  simp only [Option.map_eq_some_iff] at hn
  obtain ⟨m, hm, hmn⟩ := hn
  have hlt : calculated rnd p.1.rate el < 2 ^ 63 := by
    apply Rat.not_le.1
    intro hc
    rw [if_pos hc, toSsize_big (Rat.le_refl)] at hm
    cases hm
  rw [if_neg (Rat.not_le.2 hlt)] at hm
  refine ⟨?_, ?_, hmem⟩
  · intro hz
    have hle : calculated rnd p.1.rate el ≤ 0 := by
      rcases hz with h | h
      · have he : el ≤ 0 := by omega
        have := (calculated_sign hr hrate (show -el < 2 ^ 64 by omega) (by omega)).1
        rw [calculated_neg hr] at this
        have h0 := share_nonneg (rate := p.1.rate) (show 0 ≤ -el by omega)
        grind
      · rw [h, calculated_zero_rate hr]
        exact Rat.le_refl
    have := toSsize_neg hle hm
    omega
  · intro hz
    have he : 0 ≤ el := by omega
    obtain ⟨b1, b2⟩ := calculated_sign hr hrate hel he
    have h0' := share_nonneg (rate := p.1.rate) he
    have hc0 : 0 ≤ calculated rnd p.1.rate el := by grind
    rw [toSsize_nonneg hc0 hlt] at hm
    cases hm
    have hf : (0 : Int) ≤ (calculated rnd p.1.rate el).floor := Rat.le_floor_iff.2 hc0
    have hn' : n = (calculated rnd p.1.rate el).floor := by omega
    rw [hn']
    have f1 := Rat.floor_le (calculated rnd p.1.rate el)
    have f2 := Rat.lt_floor (x := calculated rnd p.1.rate el)
    simp only
    constructor <;> grind

/-- C81, refuted: if the rate comes to 2^63 bytes or more over the time since the last pass, the "maximum" is converted to
`double`, rounds up to 2^63 and does not fit when it is converted back. -/
theorem request_overflow {rnd : Rat → Rat} (hr : Rounding rnd) {rate : Nat} {el : Int} (hrate : rate < 2 ^ 64) (h0 : 0 ≤ el)
    (hel : el < 2 ^ 64) (h : 2 ^ 63 ≤ share rate el - share rate el / 2 ^ 51) : toRelease toSsize rnd rate el = none := by
  rw [toRelease_eq hr]
  have := (calculated_sign hr hrate hel h0).1
  rw [if_pos (Rat.le_trans h this), toSsize_big Rat.le_refl]
  rfl

/-- What x86-64 converts such a number to. -/
def toSsizeX86 (x : Rat) : Option Int := some ((toSsize x).getD (-(2 ^ 63)))

/-- C81, refuted: on x86-64 such a pass asks for nothing, so that the highest rates release no memory at all. -/
theorem request_nothing {rnd : Rat → Rat} (hr : Rounding rnd) {rate : Nat} {el : Int} (hrate : rate < 2 ^ 64) (h0 : 0 ≤ el)
    (hel : el < 2 ^ 64) (h : 2 ^ 63 ≤ share rate el - share rate el / 2 ^ 51) : toRelease toSsizeX86 rnd rate el = some 0 := by
  rw [toRelease_eq hr]
  have := (calculated_sign hr hrate hel h0).1
  rw [if_pos (Rat.le_trans h this)]
  unfold toSsizeX86
  rw [toSsize_big Rat.le_refl]
  decide

/-- A pass in a usual configuration. -/
def usual (now : Int) (rate : Nat) : Env := ⟨now, 1000000000, rate, true, true, false, true, false, false, true⟩

theorem pass_ub {rnd : Rat → Rat} {start : Int} {e : Env} (hf : e.fast = true)
    (h : toRelease toSsize rnd e.rate (e.now - start) = none) : background toSsize rnd start [e] = .ub := by
  unfold background
  rw [passes]
  have : pass toSsize rnd e (State.init start) = .ub := by
    unfold pass
    rw [if_neg (fun h => h.2 hf)]
    simp only [State.init, h]
  rw [this]

/-- C81, refuted: a release rate of SIZE_MAX bytes per second makes the first pass, a second after the start, undefined. -/
theorem highest_rate {rnd : Rat → Rat} (hr : Rounding rnd) :
    background toSsize rnd 0 [usual 1000000000 (2 ^ 64 - 1)] = .ub := by
  apply pass_ub rfl
  exact request_overflow hr (by decide) (by decide) (by decide) (by decide +kernel)

/-- C81, refuted: and so does the clock going back by a second, although "if time goes backwards, we would like to cap the release
rate at 0": the cap comes after the conversion. -/
theorem clock_set_back {rnd : Rat → Rat} (hr : Rounding rnd) :
    background toSsize rnd 1000000000 [usual 0 (2 ^ 64 - 1)] = .ub := by
  apply pass_ub rfl
  show toRelease toSsize rnd (2 ^ 64 - 1) (-1000000000) = none
  rw [toRelease_eq hr, calculated_neg hr]
  have := (calculated_sign hr (rate := 2 ^ 64 - 1) (el := 1000000000) (by decide) (by decide) (by decide)).1
  have h2 : (2 : Rat) ^ 63 + 1 ≤ share (2 ^ 64 - 1) 1000000000 - share (2 ^ 64 - 1) 1000000000 / 2 ^ 51 := by decide +kernel
  have h3 := Rat.le_trans h2 this
  generalize calculated rnd (2 ^ 64 - 1) 1000000000 = c at *
  rw [if_neg (by grind), toSsize_small (by grind)]
  rfl

/-- C81, the part that holds: as long as the rate comes to less than 2^63 bytes, less one part in 2^50, over the time since the
last pass, forwards or backwards, and the thread can use restartable sequences, every pass is carried out. -/
theorem request_defined_partial {rnd : Rat → Rat} (hr : Rounding rnd) (l : List Env) (s : State)
    (hfast : ∀ e ∈ l, e.fast = true) (hrate : ∀ e ∈ l, e.rate < 2 ^ 64)
    (hstep : ∀ l1 e l2, l = l1 ++ e :: l2 →
      let el := e.now - l1.foldl (fun _ e => e.now) s.prev
      el < 2 ^ 64 ∧ -(2 ^ 64) < el ∧ share e.rate el < 2 ^ 63 - 2 ^ 13 ∧ -(2 ^ 63 - 2 ^ 13) < share e.rate el) :
    ∃ s' h, passes toSsize rnd l s = .ok (s', h) := by
  induction l generalizing s with
  | nil => exact ⟨s, [], rfl⟩
  | cons e l ih =>
    have h := hstep [] e l rfl
    simp only [List.foldl_nil] at h
    obtain ⟨e2, e1, e3, e4⟩ := h
    have hrt := hrate e List.mem_cons_self
    have hsome : ∃ n, toRelease toSsize rnd e.rate (e.now - s.prev) = some n := by
      rw [toRelease_eq hr]
      generalize e.now - s.prev = el at *
      rcases Int.le_total 0 el with h0 | h0
      · obtain ⟨b1, b2⟩ := calculated_sign hr hrt e2 h0
        have hs := share_nonneg (rate := e.rate) h0
        have hlt : calculated rnd e.rate el < 2 ^ 63 := by grind
        have hge : 0 ≤ calculated rnd e.rate el := by grind
        rw [if_neg (Rat.not_le.2 hlt), toSsize_nonneg hge hlt]
        exact ⟨_, rfl⟩
      · obtain ⟨b1, b2⟩ := calculated_sign hr hrt (show -el < 2 ^ 64 by omega) (by omega)
        have hs := share_nonneg (rate := e.rate) (show 0 ≤ -el by omega)
        rw [calculated_neg hr] at b1 b2
        rw [share_neg] at b1 b2 hs
        have hlt : calculated rnd e.rate el < 2 ^ 63 := by grind
        rw [if_neg (Rat.not_le.2 hlt)]
        have hge : -(2 ^ 63) < calculated rnd e.rate el := by grind
        have hle : calculated rnd e.rate el ≤ 0 := by grind
        generalize calculated rnd e.rate el = c at *
        unfold toSsize
        by_cases hc0 : 0 ≤ c
        · have : c = 0 := Rat.le_antisymm hle hc0
          subst this
          exact ⟨0, by decide +kernel⟩
        · simp only [hc0, if_false]
          have k1 : -(2 ^ 63) ≤ c.ceil := by
            have : (-(2 ^ 63) : Int) < c.ceil := by
              rw [Rat.lt_ceil_iff]
              have e : ((-(2 ^ 63) : Int) : Rat) = -(2 ^ 63) := by decide +kernel
              rw [e]; exact hge
            omega
          have k2 : c.ceil ≤ (0 : Int) := by rw [Rat.ceil_le_iff]; exact hle
          rw [if_pos ⟨k1, by omega⟩]
          exact ⟨_, rfl⟩
    obtain ⟨n, hn⟩ := hsome
    have hpass : ∃ s1 as, pass toSsize rnd e s = .ok (s1, as) ∧ s1.prev = e.now := by
      unfold pass
      rw [if_neg (fun h => h.2 (hfast e List.mem_cons_self))]
      simp only [hn]
      exact ⟨_, _, rfl, rfl⟩
    obtain ⟨s1, as, hp, hprev⟩ := hpass
    obtain ⟨s', h', hl⟩ := ih s1 (fun e he => hfast e (List.mem_cons_of_mem _ he)) (fun e he => hrate e (List.mem_cons_of_mem _ he))
      (by
        intro l1 e' l2 hl
        have := hstep (e :: l1) e' l2 (by rw [hl]; rfl)
        rw [hprev]
        exact this)
    refine ⟨s', (e, as) :: h', ?_⟩
    rw [passes, hp]
    simp only [hl]

/-- All that the passes ask for. -/
def total (h : List (Env × List Action)) : Int := (h.map (fun p => bytesOf p.2)).sum

/-- C81: at a constant rate, while the clock does not go back, what the passes ask for adds up to what the rate comes to over the
whole time, short by less than a byte per pass and up to the error of `double` arithmetic. -/
theorem requests_add_up {rnd : Rat → Rat} (hr : Rounding rnd) {rate : Nat} (hrate : rate < 2 ^ 64) {l : List Env} {s s' : State}
    {h : List (Env × List Action)} (hb : passes toSsize rnd l s = .ok (s', h)) (hc : ∀ e ∈ l, e.rate = rate)
    (hmono : (s.prev :: l.map Env.now).Pairwise (· ≤ ·)) (hel : ∀ t ∈ l.map Env.now, t - s.prev < 2 ^ 64) :
    let due := share rate (s'.prev - s.prev)
    s.prev ≤ s'.prev ∧ due - due / 2 ^ 51 - l.length ≤ total h ∧ total h ≤ due + due / 2 ^ 51 := by
  induction l generalizing s h with
  | nil =>
    simp only [passes, Out.ok.injEq, Prod.mk.injEq] at hb
    obtain ⟨rfl, rfl⟩ := hb
    have : share rate (s.prev - s.prev) = 0 := by
      rw [Int.sub_self]
      unfold share
      have : ((0 : Int) : Rat) = 0 := rfl
      rw [this]; grind
    simp only [this]
    exact ⟨Int.le_refl _, by decide +kernel, by decide +kernel⟩
  | cons e l ih =>
    rw [passes] at hb
    split at hb
    · cases hb
    · cases hb
    · rename_i s1 as hs
      split at hb
      · cases hb
      · cases hb
      · rename_i s2 h' hl
        simp only [Out.ok.injEq, Prod.mk.injEq] at hb
        obtain ⟨rfl, rfl⟩ := hb
        have hp := (pass_timed hs .drain).2.2
        rw [List.map_cons] at hmono hel
        rw [List.pairwise_cons] at hmono
        have hle : s.prev ≤ e.now := hmono.1 _ List.mem_cons_self
        have he := hel _ List.mem_cons_self
        obtain ⟨i1, i2, i3⟩ := ih hl (fun e h => hc e (List.mem_cons_of_mem _ h)) (by rw [hp]; exact hmono.2)
          (by intro t ht; rw [hp]; have := hel t (List.mem_cons_of_mem _ ht); omega)
        -- this pass
        obtain ⟨n, hn, h0, hbytes, _⟩ := bytesOf_pass hs
        rw [toRelease_eq hr, hc e List.mem_cons_self] at hn
        simp only [Option.map_eq_some_iff] at hn
        obtain ⟨m, hm, hmn⟩ := hn
        have hlt : calculated rnd rate (e.now - s.prev) < 2 ^ 63 := by
          apply Rat.not_le.1
          intro hcc
          rw [if_pos hcc, toSsize_big (Rat.le_refl)] at hm
          cases hm
        rw [if_neg (Rat.not_le.2 hlt)] at hm
        obtain ⟨b1, b2⟩ := calculated_sign hr hrate he (by omega)
        have hs0 := share_nonneg (rate := rate) (show 0 ≤ e.now - s.prev by omega)
        have hc0 : 0 ≤ calculated rnd rate (e.now - s.prev) := by grind
        rw [toSsize_nonneg hc0 hlt] at hm
        cases hm
        have hf : (0 : Int) ≤ (calculated rnd rate (e.now - s.prev)).floor := Rat.le_floor_iff.2 hc0
        have hn' : n = (calculated rnd rate (e.now - s.prev)).floor := by omega
        have f1 := Rat.floor_le (calculated rnd rate (e.now - s.prev))
        have f2 := Rat.lt_floor (x := calculated rnd rate (e.now - s.prev))
        rw [← hn'] at f1 f2
        have hsum : share rate (s2.prev - s.prev) = share rate (e.now - s.prev) + share rate (s2.prev - s1.prev) := by
          unfold share
          rw [hp]
          have : s2.prev - s.prev = (e.now - s.prev) + (s2.prev - e.now) := by omega
          rw [this, Rat.intCast_add]
          grind
        have htot : total ((e, as) :: h') = n + total h' := by
          unfold total
          rw [List.map_cons, List.sum_cons, hbytes]
        simp only [hsum, htot, List.length_cons]
        generalize share rate (e.now - s.prev) = a at *
        generalize share rate (s2.prev - s1.prev) = b at *
        generalize calculated rnd rate (e.now - s.prev) = c at *
        have hcast : ((n + total h' : Int) : Rat) = (n : Rat) + (total h' : Rat) := Rat.intCast_add _ _
        have hlen : ((l.length + 1 : Nat) : Rat) = (l.length : Rat) + 1 := by exact_mod_cast rfl
        rw [hcast, hlen]
        refine ⟨by omega, ?_, ?_⟩ <;> grind

/-! ### Examples -/

/-- A rounding that meets the assumptions: exact but for the numbers next to 2^63. -/
def demoRnd (x : Rat) : Rat :=
  if 2 ^ 63 - 1 ≤ x ∧ x < 2 ^ 63 then 2 ^ 63 else if -(2 ^ 63) < x ∧ x ≤ -(2 ^ 63 - 1) then -(2 ^ 63) else x

theorem demoRnd_rounding : Rounding demoRnd where
  zero := by decide +kernel
  odd x := by unfold demoRnd; grind
  low x h1 h2 := by
    unfold demoRnd
    have := Rat.mul_nonneg (show 0 ≤ x by grind) (show (0 : Rat) ≤ 1 / 2 ^ 53 by decide +kernel)
    split
    · grind
    · split <;> grind
  high x h1 h2 := by
    unfold demoRnd
    split
    · grind
    · split <;> grind
  top := by decide +kernel

/-- Three passes a second apart, at three bytes per second and a half. -/
def demoPasses : List Env :=
  [⟨1000000000, 1000000000, 3, true, true, false, true, false, true, true⟩,
   ⟨2500000000, 1000000000, 3, true, true, false, true, false, true, false⟩,
   ⟨1500000000, 1000000000, 3, true, true, false, true, false, true, true⟩,
   ⟨6000000000, 1000000000, 3, false, true, false, true, false, true, false⟩]

example : (match background toSsize demoRnd 0 demoPasses with | .ok h => some (h.map Prod.snd) | _ => none) = some
    [[.clearTouched, .plunderSharded, .release 3],
     [.resizeClasses, .clearTouched, .plunderSharded, .resizeTransfer, .release 4],
     [.clearTouched, .plunderSharded, .release 0],
     [.plunderSharded, .plunder, .resizeTransfer, .treat true, .release 13]] := by decide +kernel

end Verif.Background
