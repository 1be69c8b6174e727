import Verif.Environ.Model
/-! C88: a setting in the environment is read under exactly its name. -/
namespace Verif.Environ

theorem strncmp_cons (a b : Nat) (s t : Str) (n i : Nat) : strncmpIs0 (a :: s) (b :: t) n (i + 1) = strncmpIs0 s t n i := by
  induction n generalizing i with
  | zero => rfl
  | succ n ih =>
    have e : ∀ (x : Nat) (u : Str), byteAt (x :: u) (i + 1) = byteAt u i := by intro x u; simp [byteAt]
    simp only [strncmpIs0, e, ih]

/-- The comparison is always defined, and is 0 exactly if the name is a prefix of the entry. -/
theorem strncmp_ok (s t : Str) (ht : Clean t) : ∃ c, strncmpIs0 s t t.length 0 = some c ∧ (c = true ↔ t <+: s) := by
  induction t generalizing s with
  | nil => exact ⟨true, rfl, by simp⟩
  | cons b t ih =>
    have hb : b ≠ 0 := ht b (by simp)
    cases s with
    | nil => exact ⟨false, by simp [strncmpIs0, byteAt, Ne.symm hb], by simp⟩
    | cons a s =>
      by_cases hab : a = b
      · subst hab
        obtain ⟨c, h1, h2⟩ := ih s (fun x hx => ht x (by simp [hx]))
        refine ⟨c, ?_, ?_⟩
        · simp only [List.length_cons, strncmpIs0]
          rw [show byteAt (a :: s) 0 = some a by simp [byteAt], show byteAt (a :: t) 0 = some a by simp [byteAt]]
          simp [hb, strncmp_cons, h1]
        · rw [h2, List.cons_prefix_cons]; simp
      · refine ⟨false, ?_, ?_⟩
        · simp only [List.length_cons, strncmpIs0]
          rw [show byteAt (a :: s) 0 = some a by simp [byteAt], show byteAt (b :: t) 0 = some b by simp [byteAt]]
          simp [hab]
        · rw [List.cons_prefix_cons]; simp [Ne.symm hab]

/-- The test of an entry is always defined, and says whether the entry sets the name. -/
theorem matches_ok (e name : Str) (hn : Clean name) :
    ∃ m, matches? e name = some m ∧ (m = true ↔ ∃ v, Sets e name v) := by
  obtain ⟨c, h1, h2⟩ := strncmp_ok e name hn
  unfold matches?
  rw [h1]
  cases c with
  | false =>
    refine ⟨false, rfl, by simp only [Bool.false_eq_true, false_iff]; rintro ⟨v, rfl⟩; exact absurd (h2.2 (List.prefix_append _ _)) (by simp)⟩
  | true =>
    obtain ⟨r, rfl⟩ := h2.1 rfl
    cases r with
    | nil =>
      refine ⟨false, by simp [byteAt], ?_⟩
      simp [Sets]
    | cons x r =>
      refine ⟨x == 61, by simp [byteAt], ?_⟩
      simp only [beq_iff_eq, Sets, List.append_cancel_left_eq, List.cons.injEq]
      constructor
      · rintro rfl; exact ⟨r, rfl, rfl⟩
      · rintro ⟨v, h, -⟩; exact h

/-- **C88.**  In every environment, for every name, the lookup reads no byte outside the strings, and returns exactly the value of
the first entry that sets the name, or nothing if none does. -/
theorem getenv_exact (env : List Str) (name : Str) (hn : Clean name) :
    ∃ r, getenv (some env) name = some r ∧
      match r with
      | some v => IsSet env name v
      | none => Unset env name := by
  unfold getenv
  induction env with
  | nil => exact ⟨none, rfl, by simp [Unset]⟩
  | cons e es ih =>
    obtain ⟨m, h1, h2⟩ := matches_ok e name hn
    simp only [search, h1]
    cases m with
    | true =>
      obtain ⟨v, hv⟩ := h2.1 rfl
      refine ⟨some v, ?_, [], e, es, rfl, hv, by simp⟩
      rw [hv]
      simp
    | false =>
      have hno : ∀ w, ¬ Sets e name w := fun w h => by simpa using h2.2 ⟨w, h⟩
      obtain ⟨r, h3, h4⟩ := ih
      refine ⟨r, by simpa using h3, ?_⟩
      cases r with
      | none =>
        intro x hx w
        rcases List.mem_cons.1 hx with rfl | hx
        · exact hno w
        · exact h4 x hx w
      | some v =>
        obtain ⟨pre, e', post, rfl, hs, hp⟩ := h4
        refine ⟨e :: pre, e', post, rfl, hs, ?_⟩
        intro x hx w
        rcases List.mem_cons.1 hx with rfl | hx
        · exact hno w
        · exact hp x hx w

/-- A value is determined: at most one value is that of a name, and none if it is unset. -/
theorem isSet_unique {env : List Str} {name v w : Str} (h1 : IsSet env name v) (h2 : IsSet env name w) : v = w := by
  induction env with
  | nil => obtain ⟨pre, e, post, h, -⟩ := h1; simp at h
  | cons x env ih =>
    obtain ⟨p1, e1, q1, a1, b1, c1⟩ := h1
    obtain ⟨p2, e2, q2, a2, b2, c2⟩ := h2
    cases p1 with
    | nil =>
      simp only [List.nil_append, List.cons.injEq] at a1
      cases p2 with
      | nil =>
        simp only [List.nil_append, List.cons.injEq] at a2
        have : name ++ 61 :: v = name ++ 61 :: w := by rw [← b1, ← b2, ← a1.1, ← a2.1]
        simpa using this
      | cons y p2 =>
        simp only [List.cons_append, List.cons.injEq] at a2
        exact absurd (by rw [← a2.1, a1.1]; exact b1) (c2 y (by simp) v)
    | cons y p1 =>
      simp only [List.cons_append, List.cons.injEq] at a1
      cases p2 with
      | nil =>
        simp only [List.nil_append, List.cons.injEq] at a2
        exact absurd (by rw [← a1.1, a2.1]; exact b2) (c1 y (by simp) w)
      | cons z p2 =>
        simp only [List.cons_append, List.cons.injEq] at a2
        exact ih ⟨p1, e1, q1, a1.2, b1, fun u hu => c1 u (by simp [hu])⟩ ⟨p2, e2, q2, a2.2, b2, fun u hu => c2 u (by simp [hu])⟩

theorem name_split {a b v w : Str} (ha : Name a) (hb : Name b) (h : a ++ 61 :: v = b ++ 61 :: w) : a = b := by
  induction a generalizing b with
  | nil =>
    cases b with
    | nil => rfl
    | cons y b => simp only [List.nil_append, List.cons_append, List.cons.injEq] at h; exact absurd (by simp [← h.1]) hb
  | cons x a ih =>
    cases b with
    | nil => simp only [List.nil_append, List.cons_append, List.cons.injEq] at h; exact absurd (by simp [h.1]) ha
    | cons y b =>
      simp only [List.cons_append, List.cons.injEq] at h
      rw [h.1, ih (fun hx => ha (by simp [hx])) (fun hx => hb (by simp [hx])) h.2]

/-- **C88, other variables.**  Setting a variable with another name, longer, shorter or only similar, anywhere in the environment,
does not change what is read. -/
theorem other_variable_irrelevant (env₁ env₂ : List Str) (name other value : Str) (hc : Clean name) (hn : Name name) (ho : Name other)
    (hne : other ≠ name) :
    getenv (some (env₁ ++ (other ++ 61 :: value) :: env₂)) name = getenv (some (env₁ ++ env₂)) name := by
  unfold getenv
  induction env₁ with
  | nil =>
    obtain ⟨m, h1, h2⟩ := matches_ok (other ++ 61 :: value) name hc
    have : m = false := by
      cases m with
      | false => rfl
      | true => obtain ⟨v, hv⟩ := h2.1 rfl; exact absurd (name_split ho hn hv) hne
    subst this
    simp [search, h1]
  | cons e es ih => simp only [List.cons_append, search, ih]

/-- **C88, setting.**  After `NAME=value` is put in front, or anywhere in an environment that does not set the name before, the
value is read. -/
theorem set_then_get (env₁ env₂ : List Str) (name value : Str) (hc : Clean name) (hu : Unset env₁ name) :
    getenv (some (env₁ ++ (name ++ 61 :: value) :: env₂)) name = some (some value) := by
  obtain ⟨r, h1, h2⟩ := getenv_exact (env₁ ++ (name ++ 61 :: value) :: env₂) name hc
  rw [h1]
  have hs : IsSet (env₁ ++ (name ++ 61 :: value) :: env₂) name value := ⟨env₁, _, env₂, rfl, rfl, hu⟩
  cases r with
  | none => exact absurd rfl (h2 (name ++ 61 :: value) (by simp) value)
  | some v => rw [isSet_unique h2 hs]

/-! ### The hypotheses are met: `AB` among `A=9`, `ABC=8`, `AB`, `AB=7`, `AB=6` -/

example : getenv (some [[65, 61, 57], [65, 66, 67, 61, 56], [65, 66], [65, 66, 61, 55], [65, 66, 61, 54]]) [65, 66] = some (some [55]) := by
  decide
example : Clean [65, 66] ∧ Name [65, 66] ∧ Unset [[65, 61, 57], [65, 66]] [65, 66] := by
  refine ⟨by unfold Clean; decide, by unfold Name; decide, ?_⟩
  intro x hx w
  simp only [List.mem_cons, List.not_mem_nil, or_false] at hx
  rcases hx with rfl | rfl <;> simp [Sets]

end Verif.Environ
