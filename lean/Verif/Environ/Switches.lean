import Verif.Environ.Props
/-! Switches of the allocator that are read from the environment (C88): release of parts of huge pages, huge regions, and the
partitioning of the heap. -/
namespace Verif.Environ

/-- The bytes of a string literal of the program (e.g. huge_page_aware_allocator.cc:46). -/
def bytes (s : String) : Str := s.toList.map Char.toNat

/-- What a switch comes out as: the `bool` returned, or `TC_BUG` (huge_page_aware_allocator.cc:45-96). -/
inductive Switch | on | off | stops
  deriving Repr, DecidableEq

/-- The end of `decide_subrelease`, huge_page_aware_allocator.cc:62-69; `dflt` is what the weak `default_subrelease` returns, if
linked in. -/
def subreleaseDefault (dflt : Option Int) : Switch :=
  match dflt with
  | none => .on
  | some d => if d ≠ 0 then (if d > 0 then .on else .off) else .on

/-- `decide_subrelease`, huge_page_aware_allocator.cc:45-70; `stops` is `TC_BUG`. -/
def decideSubrelease (environ : Option (List Str)) (dflt : Option Int) : Option Switch := do
  let e ← getenv environ (bytes "TCMALLOC_HPAA_CONTROL")
  match e with
  | none => some (subreleaseDefault dflt)
  | some v =>
    let b ← byteAt v 0
    if b = 48 then some (subreleaseDefault dflt) else if b = 49 then some .off else if b = 50 then some .on else some .stops

/-- `use_huge_region_more_often`, huge_page_aware_allocator.cc:75-96; `optOut`: built against the opt-out. -/
def useHugeRegionMoreOften (environ : Option (List Str)) (optOut : Bool) : Option Switch :=
  if optOut then some .off
  else do
    let e ← getenv environ (bytes "TCMALLOC_USE_HUGE_REGION_MORE_OFTEN_DISABLE")
    match e with
    | none => some .on
    | some v =>
      let b ← byteAt v 0
      if b = 48 then some .on else if b = 49 then some .off else some .stops

/-- `HeapPartitioningMode`, parameters.h:38-46. -/
inductive Mode | off | light | full
  deriving Repr, DecidableEq

/-- `tolower` in the C locale, as `strcasecmp` uses it (parameters.cc:279, 281). -/
def lower (b : Nat) : Nat := if 65 ≤ b ∧ b ≤ 90 then b + 32 else b

/-- The initial mode of the partitioning of the heap, parameters.cc:264-289; `partitions` is `kSecurityPartitions`, `dflt` says that
the experiment is active or the default-on library linked in.  Simplified: the comparisons are on whole strings. -/
def partitioning (environ : Option (List Str)) (partitions : Nat) (dflt : Bool) : Option Mode :=
  if partitions = 1 then some .off
  else do
    let e ← getenv environ (bytes "TCMALLOC_HEAP_PARTITIONING")
    match e with
    | none => some (if dflt then .full else .off)
    | some hp =>
      if hp.map lower = bytes "false" ∨ hp = bytes "0" then some .off
      else if hp = bytes "2" ∨ hp.map lower = bytes "light" then some .light
      else some .full

theorem getenv_unset {env : List Str} {name : Str} (hc : Clean name) (h : Unset env name) : getenv (some env) name = some none := by
  obtain ⟨r, h1, h2⟩ := getenv_exact env name hc
  cases r with
  | none => exact h1
  | some v =>
    obtain ⟨pre, e, post, rfl, hs, -⟩ := h2
    exact absurd hs (h e (by simp) v)

theorem getenv_set {env : List Str} {name v : Str} (hc : Clean name) (h : IsSet env name v) : getenv (some env) name = some (some v) := by
  obtain ⟨pre, e, post, rfl, hs, hp⟩ := h
  rw [show e = name ++ 61 :: v from hs]
  exact set_then_get pre post name v hc hp

theorem clean_hpaa : Clean (bytes "TCMALLOC_HPAA_CONTROL") := by unfold Clean; decide +kernel
theorem clean_region : Clean (bytes "TCMALLOC_USE_HUGE_REGION_MORE_OFTEN_DISABLE") := by unfold Clean; decide +kernel
theorem clean_part : Clean (bytes "TCMALLOC_HEAP_PARTITIONING") := by unfold Clean; decide +kernel

/-- **C88, TCMALLOC_HPAA_CONTROL.**  Unset, or a value that begins with `0`: what the program is linked for, and on by default.
`1…` turns the release of parts of huge pages off, `2…` turns it on; every other value, and an empty one, stops the program. -/
theorem subrelease_follows (env : List Str) (dflt : Option Int) :
    (Unset env (bytes "TCMALLOC_HPAA_CONTROL") →
      decideSubrelease (some env) dflt = some (if ∃ d, dflt = some d ∧ d < 0 then .off else .on)) ∧
    (∀ v, IsSet env (bytes "TCMALLOC_HPAA_CONTROL") v → decideSubrelease (some env) dflt = some (
      match v.head? with
      | some 48 => if ∃ d, dflt = some d ∧ d < 0 then .off else .on
      | some 49 => .off
      | some 50 => .on
      | _ => .stops)) := by
  have hd : subreleaseDefault dflt = if ∃ d, dflt = some d ∧ d < 0 then .off else .on := by
    cases dflt with
    | none => simp [subreleaseDefault]
    | some d =>
      simp only [subreleaseDefault, Option.some.injEq, exists_eq_left']
      by_cases h0 : d = 0
      · subst h0; rfl
      · by_cases h1 : d > 0
        · rw [if_pos h0, if_pos h1, if_neg (by omega)]
        · rw [if_pos h0, if_neg h1, if_pos (by omega)]
  constructor
  · intro h
    simp only [decideSubrelease, getenv_unset clean_hpaa h, ← hd]
    rfl
  · intro v h
    simp only [decideSubrelease, getenv_set clean_hpaa h, ← hd]
    cases v with
    | nil => rfl
    | cons b v =>
      simp only [Option.bind_eq_bind, Option.bind_some, byteAt, List.length_cons, Nat.zero_lt_succ, if_true, List.getD_cons_zero,
        List.head?_cons]
      by_cases h1 : b = 48
      · subst h1; rfl
      · by_cases h2 : b = 49
        · subst h2; rfl
        · by_cases h3 : b = 50
          · subst h3; rfl
          · rw [if_neg h1, if_neg h2, if_neg h3]
            split <;> simp_all

/-- **C88, TCMALLOC_USE_HUGE_REGION_MORE_OFTEN_DISABLE.**  Without the opt-out of the build: on if unset or `0…`, off if `1…`, and
every other value stops the program. -/
theorem huge_region_follows (env : List Str) :
    (Unset env (bytes "TCMALLOC_USE_HUGE_REGION_MORE_OFTEN_DISABLE") → useHugeRegionMoreOften (some env) false = some .on) ∧
    (∀ v, IsSet env (bytes "TCMALLOC_USE_HUGE_REGION_MORE_OFTEN_DISABLE") v → useHugeRegionMoreOften (some env) false = some (
      match v.head? with
      | some 48 => .on
      | some 49 => .off
      | _ => .stops)) := by
  constructor
  · intro h
    simp only [useHugeRegionMoreOften, getenv_unset clean_region h]
    rfl
  · intro v h
    simp only [useHugeRegionMoreOften, getenv_set clean_region h]
    cases v with
    | nil => rfl
    | cons b v =>
      simp only [Bool.false_eq_true, if_false, Option.bind_eq_bind, Option.bind_some, byteAt, List.length_cons, Nat.zero_lt_succ,
        if_true, List.getD_cons_zero, List.head?_cons]
      by_cases h1 : b = 48
      · subst h1; rfl
      · by_cases h2 : b = 49
        · subst h2; rfl
        · rw [if_neg h1, if_neg h2]
          split <;> simp_all

/-- **C88, TCMALLOC_HEAP_PARTITIONING.**  In a build with partitions: unset gives the default, `0` and `false` (in any case) turn
partitioning off, `2` and `light` make it light, and every other value, also the empty one and `off`, makes it full.  In a build
without partitions it is off. -/
theorem partitioning_follows (env : List Str) (n : Nat) (dflt : Bool) (hn : n ≠ 1) :
    (Unset env (bytes "TCMALLOC_HEAP_PARTITIONING") → partitioning (some env) n dflt = some (if dflt then .full else .off)) ∧
    (∀ v, IsSet env (bytes "TCMALLOC_HEAP_PARTITIONING") v → ∃ m, partitioning (some env) n dflt = some m ∧
      (m = .off ↔ v = bytes "0" ∨ v.map lower = bytes "false") ∧
      (m = .light ↔ v = bytes "2" ∨ v.map lower = bytes "light")) ∧
    partitioning (some env) 1 dflt = some .off := by
  refine ⟨?_, ?_, rfl⟩
  · intro h
    simp only [partitioning, if_neg hn, getenv_unset clean_part h]
    rfl
  · intro v h
    simp only [partitioning, if_neg hn, getenv_set clean_part h, Option.bind_eq_bind, Option.bind_some]
    by_cases h1 : v.map lower = bytes "false" ∨ v = bytes "0"
    · refine ⟨.off, by rw [if_pos h1], by simp [h1.symm], ?_⟩
      simp only [reduceCtorEq, false_iff]
      rcases h1 with h1 | h1
      · rintro (h2 | h2)
        · rw [h2] at h1; revert h1; decide +kernel
        · rw [h2] at h1; revert h1; decide +kernel
      · rw [h1]; decide +kernel
    · by_cases h2 : v = bytes "2" ∨ v.map lower = bytes "light"
      · refine ⟨.light, by rw [if_neg h1, if_pos h2], ?_, by simp [h2]⟩
        simp only [reduceCtorEq, false_iff]
        exact fun h => h1 h.symm
      · refine ⟨.full, by rw [if_neg h1, if_neg h2], ?_, by simp [h2]⟩
        simp only [reduceCtorEq, false_iff]
        exact fun h => h1 h.symm

/-- `TCMALLOC_HPAA_CONTROL=1` after a variable with a longer name. -/
example : decideSubrelease (some [bytes "TCMALLOC_HPAA_CONTROLS=2", bytes "TCMALLOC_HPAA_CONTROL=1"]) none = some .off := by decide +kernel
example : useHugeRegionMoreOften (some [bytes "TCMALLOC_USE_HUGE_REGION_MORE_OFTEN_DISABLE=x"]) false = some .stops := by decide +kernel
example : partitioning (some [bytes "TCMALLOC_HEAP_PARTITIONING=Light"]) 2 false = some .light := by decide +kernel
example : partitioning (some [bytes "TCMALLOC_HEAP_PARTITIONING=off"]) 2 false = some .full := by decide +kernel
example : IsSet [bytes "TCMALLOC_HPAA_CONTROLS=2", bytes "TCMALLOC_HPAA_CONTROL=1"] (bytes "TCMALLOC_HPAA_CONTROL") (bytes "1") := by
  obtain ⟨r, h1, h2⟩ := getenv_exact [bytes "TCMALLOC_HPAA_CONTROLS=2", bytes "TCMALLOC_HPAA_CONTROL=1"] (bytes "TCMALLOC_HPAA_CONTROL") clean_hpaa
  have h3 : getenv (some [bytes "TCMALLOC_HPAA_CONTROLS=2", bytes "TCMALLOC_HPAA_CONTROL=1"]) (bytes "TCMALLOC_HPAA_CONTROL") =
    some (some (bytes "1")) := by decide +kernel
  rw [h3] at h1
  cases h1
  exact h2

end Verif.Environ
