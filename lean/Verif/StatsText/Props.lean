import Verif.StatsText.Lemmas
/-
C62: statistics reports never overrun the buffer, and are the text asked for, cut off only where
the return value says so.
-/
namespace Verif.StatsText

/-- Whatever is printed, even when formatting fails, nothing is written outside the buffer. -/
theorem never_outside (b : List Char) (h0 : 0 < b.length) (ops : List Op) :
    ∃ p, print b ops = some p ∧ p.buf.length = b.length := by
  obtain ⟨p, h1, h2⟩ := print_inB h0 ops
  exact ⟨p, h1, h2.len⟩

/-- The space reported is the length of the whole text, and the buffer holds a prefix of the text:
all of it if it is shorter than the buffer.  Past the byte that follows this prefix the buffer is
untouched. -/
theorem print_exact (b : List Char) (h0 : 0 < b.length) (ops : List Op)
    (hs : ∀ o ∈ ops, o.Sound) :
    ∃ p, print b ops = some p ∧ p.required = (textOf ops).length ∧
      p.buf.length = b.length ∧ HoldsPrefix p.buf (textOf ops) ∧
      (∀ i, (textOf ops).length < i → p.buf[i]? = b[i]?) := by
  obtain ⟨p, h1, h2⟩ := print_inv h0 hs
  obtain ⟨k, hk1, hk2, hk3, hk4, hk5⟩ := h2.held
  refine ⟨p, h1, h2.req, h2.len, ⟨k, by rw [h2.len]; exact hk1, hk2, hk3, ?_⟩, ?_⟩
  · intro h
    rw [h2.len] at h
    exact (hk5 h).1
  · intro i hi
    exact hk4 i (by omega)

/-- Text written with `printf` alone fills all the buffer but its last byte if need be, and is
always terminated. -/
theorem printf_exact (b : List Char) (h0 : 0 < b.length) (ops : List Op)
    (hs : ∀ o ∈ ops, o.Sound) (hp : ∀ o ∈ ops, o.IsPrintf) :
    ∃ p rest, print b ops = some p ∧
      p.buf = (textOf ops).take (b.length - 1) ++ [NUL] ++ rest := by
  obtain ⟨p, h1, -, -, -, -⟩ := print_exact b h0 ops hs
  obtain ⟨q, hq, hq2, hq3, hq4, -⟩ := mk_some h0
  have hi : Inv b [] q := mk_inv hq h0
  have hP : InvP b [] q := ⟨by simp, by simp [hq2]⟩
  have hrun : run q ops = some p := by
    unfold print at h1
    rw [hq, Option.bind_some] at h1
    exact h1
  have h2 := run_invP ops hi hP h0 hs hp hrun
  rw [List.nil_append] at h2
  refine ⟨p, p.buf.drop (min (textOf ops).length (b.length - 1) + 1), h1, ?_⟩
  have hnul := h2.nul
  rw [List.getElem?_eq_some_iff] at hnul
  obtain ⟨hlt, hn⟩ := hnul
  rw [← h2.take, ← hn, ← List.take_succ_eq_append_getElem, List.take_append_drop]

/-- Text written with `Append` alone is stored whole if it fits, terminated or not. -/
theorem append_exact (b : List Char) (h0 : 0 < b.length) (pss : List (List (List Char)))
    (hfit : (textOf (pss.map Op.append)).length ≤ b.length) :
    ∃ p, print b (pss.map Op.append) = some p ∧
      p.buf.take (textOf (pss.map Op.append)).length = textOf (pss.map Op.append) := by
  obtain ⟨p, h1, -⟩ := never_outside b h0 (pss.map Op.append)
  refine ⟨p, h1, ?_⟩
  obtain ⟨q, hq, hq2, hq3, hq4, -⟩ := mk_some h0
  have hrun : run q (pss.map Op.append) = some p := by
    unfold print at h1
    rw [hq, Option.bind_some] at h1
    exact h1
  have hlen : q.buf.length = b.length := by rw [hq2]; simp; omega
  have key : ∀ (pss : List (List (List Char))) (T : List Char) (q p : Printer), InvA b T q →
      InB b.length q → run q (pss.map Op.append) = some p →
      InvA b (T ++ textOf (pss.map Op.append)) p := by
    intro pss
    induction pss with
    | nil =>
      intro T q p hq _ h
      simp only [List.map_nil, run, Option.some.injEq] at h
      subst h
      simpa [textOf] using hq
    | cons ps pss ih =>
      intro T q p hq hb h
      rw [List.map_cons] at h
      unfold run at h
      obtain ⟨q', e1, e2⟩ := step_inB hb (.append ps)
      rw [e1, Option.bind_some] at h
      have := ih (T ++ ps.flatten) q' p (step_invA hb.len hq e1) e2 h
      simpa [textOf, Op.text, List.append_assoc] using this
  have := key pss [] q p (fun _ => ⟨hq3, by simpa using hq4, by simp⟩) ⟨hlen, by omega⟩ hrun
  rw [List.nil_append] at this
  exact (this hfit).2.2

/-- What both reports into a caller's buffer have in common. -/
theorem withFactory_exact {b0 T ft : List Char} {p : Printer} {fac : Factory} (hf : Reports fac ft)
    (hlen : p.buf.length = b0.length) (hreq : p.required = T.length) (hh : HoldsPrefix p.buf T) :
    (withFactory p.buf p.required fac).1.length = b0.length ∧
      HoldsPrefix (withFactory p.buf p.required fac).1 (T ++ ft) ∧
      ((withFactory p.buf p.required fac).2 < b0.length ↔ (T ++ ft).length < b0.length) ∧
      ((withFactory p.buf p.required fac).2 < b0.length →
        (withFactory p.buf p.required fac).2 = (T ++ ft).length) := by
  obtain ⟨k, hk1, hk2, hk3, hk4⟩ := hh
  unfold withFactory
  rw [hreq]
  by_cases hT : T.length < p.buf.length
  · rw [if_pos hT]
    have hk := hk4 hT
    subst hk
    obtain ⟨f1, f2, j, hj1, hj2, hj3, hj4⟩ := hf (p.buf.drop T.length)
    rw [f1, List.length_drop] at hj1 hj4
    rw [List.length_drop] at f1
    rw [List.take_of_length_le (l := T) (Nat.le_refl _)] at hk3
    simp only
    refine ⟨by rw [List.length_append, f1, List.length_take]; omega,
      ⟨T.length + j, ?_, ?_, ?_, ?_⟩, ?_, ?_⟩
    · rw [List.length_append, f1, List.length_take]
      omega
    · rw [List.length_append]
      omega
    · rw [hk3, List.take_length_add_append, List.take_length_add_append, hj3]
    · intro h
      rw [List.length_append, List.length_append, f1, List.length_take] at h
      rw [hj4 (by omega), List.length_append]
    · rw [f2, List.length_append]
    · intro _
      rw [f2, List.length_append]
  · rw [if_neg hT]
    simp only
    refine ⟨hlen, ⟨k, hk1, by rw [List.length_append]; omega,
      by rw [List.take_append_of_le_length hk2]; exact hk3, ?_⟩, ?_, ?_⟩
    · intro h
      rw [List.length_append] at h
      omega
    · rw [List.length_append]
      omega
    · intro h
      omega

/-- **C62** (statistics in text-proto form).  For every buffer, every statistics and every region
factory that keeps its contract: the call stays in the buffer, leaves there a prefix of the
statistics followed by the factory's text, and returns a number smaller than the buffer exactly
when that is all of it; the number is then the length of the text. -/
theorem pbtxt_exact (b : List Char) (h0 : 0 < b.length) (dump : Nat → List Op)
    (hs : ∀ l, ∀ o ∈ dump l, o.Sound) (fac : Factory) (ft : List Char) (hf : Reports fac ft) :
    ∃ b' r, getStatsInPbtxt b dump fac = some (b', r) ∧
      let text := textOf (dump (if b.length < 10000 then 1 else 2)) ++ ft
      b'.length = b.length ∧ HoldsPrefix b' text ∧
      (r < b.length ↔ text.length < b.length) ∧ (r < b.length → r = text.length) := by
  obtain ⟨p, h1, h2, h3, h4, -⟩ := print_exact b h0 _ (hs (level b.length))
  refine ⟨_, _, by rw [getStatsInPbtxt, h1, Option.map_some], ?_⟩
  exact withFactory_exact hf h3 h2 h4

theorem toString_len (n : Nat) (hn : n < 2147483648) : (toString n).toList.length ≤ 10 := by
  have : (toString n).toList = Nat.toDigits 10 n := by
    show (Nat.repr n).toList = _
    rw [Nat.repr]
    simp
  rw [this]
  by_cases hz : n = 0
  · subst hz
    decide
  · have := (Nat.length_toDigits_le_iff (b := 10) (n := n) (k := 10) (by omega) (by omega)).2 (by omega)
    omega

theorem tail_sound (e : Nat) (he : e < 2147483648) : ∀ o ∈ tailOps e, o.Sound := by
  intro o ho
  have := toString_len e he
  simp only [tailOps, List.mem_cons, List.not_mem_nil, or_false] at ho
  rcases ho with h | h
  · subst h
    simp only [Op.Sound]
    decide
  · subst h
    simp only [Op.Sound, List.length_append]
    have h1 : "Memory Release Failures: ".toList.length = 25 := by decide
    have h2 : ['\n'].length = 1 := rfl
    omega

/-- The human-readable report into a buffer, as used by `GetStats` and by the crash handler. -/
theorem internal_exact (b : List Char) (h0 : 0 < b.length) (dump : Nat → List Op)
    (hs : ∀ l, ∀ o ∈ dump l, o.Sound) (e : Nat) (he : e < 2147483648) (fac : Factory)
    (ft : List Char) (hf : Reports fac ft) :
    ∃ b' r, internalGetStats b dump e fac = some (b', r) ∧
      let text := fullText (dump (if b.length < 10000 then 1 else 2)) e ft
      b'.length = b.length ∧ HoldsPrefix b' text ∧
      (r < b.length ↔ text.length < b.length) ∧ (r < b.length → r = text.length) := by
  obtain ⟨p, h1, h2, h3, h4, -⟩ := print_exact b h0 (dump (level b.length) ++ tailOps e) (by
    intro o ho
    rcases List.mem_append.1 ho with ho | ho
    · exact hs _ o ho
    · exact tail_sound e he o ho)
  refine ⟨_, _, by rw [internalGetStats, h1, Option.map_some], ?_⟩
  have ht : fullText (dump (if b.length < 10000 then 1 else 2)) e ft =
      textOf (dump (level b.length) ++ tailOps e) ++ ft := by
    have hn : "\n".toList = ['\n'] := by decide
    simp [fullText, textOf, tailOps, Op.text, level, hn, List.append_assoc]
  simp only [ht]
  exact withFactory_exact hf h3 h2 h4

/-- **C62** (`MallocExtension::GetStats`).  The string returned is the whole text of one moment:
that of the first attempt if it is shorter than 4 MiB less one byte, otherwise that of the second
if it is shorter than 8 MiB less one byte, otherwise it is empty.  It is never a cut-off text. -/
theorem getStats_exact (att : Nat → Attempt) (ft : Nat → List Char)
    (hb : ∀ s, (att s).buf.length = 2 ^ s - 1)
    (hs : ∀ s l, ∀ o ∈ (att s).dump l, o.Sound)
    (he : ∀ s, (att s).releaseErrors < 2147483648)
    (hf : ∀ s, Reports (att s).fac (ft s)) :
    let text := fun s => fullText ((att s).dump 2) (att s).releaseErrors (ft s)
    getStats att = some
      (if (text 22).length < 4194303 then text 22
       else if (text 23).length < 8388607 then text 23 else []) := by
  have one : ∀ s N, 10000 ≤ N → (att s).buf.length = N →
      attempt (att s) = some
        (if (fullText ((att s).dump 2) (att s).releaseErrors (ft s)).length < N then
          some (fullText ((att s).dump 2) (att s).releaseErrors (ft s)) else none) := by
    intro s N hN hl
    obtain ⟨b', r, h1, h2⟩ := internal_exact (att s).buf (by omega) (att s).dump (hs s)
      (att s).releaseErrors (he s) (att s).fac (ft s) (hf s)
    rw [if_neg (by omega)] at h2
    obtain ⟨h2, ⟨k, hk1, hk2, hk3, hk4⟩, h3, h4⟩ := h2
    unfold attempt
    rw [h1, Option.map_some]
    simp only
    rw [hl] at h2 h3 h4 ⊢
    by_cases hr : r < N
    · have hr' := h4 hr
      have hlt := h3.1 hr
      have hk := hk4 (by rw [h2]; exact hlt)
      rw [if_pos hr, if_pos hlt, hr', ← hk, hk3, hk, List.take_of_length_le (Nat.le_refl _)]
    · rw [if_neg hr, if_neg (fun h => hr (h3.2 h))]
  have h22 := one 22 4194303 (by decide) (by rw [hb])
  have h23 := one 23 8388607 (by decide) (by rw [hb])
  have g : getStats att = (attempt (att 22)).bind fun
      | some s => some s
      | none => (attempt (att 23)).bind fun
        | some s => some s
        | none => some [] := rfl
  simp only
  rw [g, h22, h23]
  split
  · rfl
  · split
    · rfl
    · rfl

/-- **C62** (`malloc_stats`).  What is written to standard error is the text, up to 65535 bytes. -/
theorem mallocStats_exact (b : List Char) (hb : b.length = 65536) (dump : Nat → List Op)
    (hs : ∀ o ∈ dump 1, o.Sound) (hp : ∀ o ∈ dump 1, o.IsPrintf)
    (hz : NUL ∉ textOf (dump 1)) :
    mallocStats b dump = some ((textOf (dump 1)).take 65535) := by
  obtain ⟨p, rest, h1, h2⟩ := printf_exact b (by omega) _ hs hp
  unfold mallocStats
  rw [h1, Option.bind_some]
  have hlen : strlen p.buf = some ((textOf (dump 1)).take 65535).length := by
    unfold strlen
    rw [h2, hb, List.append_assoc]
    generalize hT : (textOf (dump 1)).take (65536 - 1) = T
    have hT0 : NUL ∉ T := fun h => hz (List.mem_of_mem_take (hT ▸ h))
    rw [List.findIdx?_append, List.findIdx?_eq_none_iff.2]
    · simp [List.findIdx?_cons]
    · intro x hx
      simp only [beq_eq_false_iff_ne, ne_eq]
      exact fun h => hT0 (h ▸ hx)
  rw [hlen, Option.map_some, h2, hb, List.append_assoc, List.take_append_of_le_length (Nat.le_refl _),
    List.take_of_length_le (Nat.le_refl _)]

/-! ### The hypotheses are met, and two limits of the reports -/

/-- The default factory keeps the contract, with no text. -/
theorem default_reports : Reports defaultFactory [] := by
  intro span
  exact ⟨rfl, rfl, 0, by simp, by simp, by simp, by simp⟩

/-- A factory with a text of its own that keeps the contract. -/
def someFactory : Factory := fun span =>
  ("region".toList.take span.length ++ span.drop 6, 6)

theorem some_reports : Reports someFactory "region".toList := by
  intro span
  have h6 : "region".toList.length = 6 := by decide
  refine ⟨?_, by rw [h6]; rfl, min span.length 6, ?_, ?_, ?_, ?_⟩
  · simp [someFactory]
    omega
  · simp [someFactory]
  · omega
  · simp only [someFactory]
    rw [List.take_append_of_le_length (by simp), List.take_take]
    congr 1
    omega
  · simp only [someFactory]
    simp
    omega

/-- A text-proto report that fits: statistics and the factory's text. -/
example : getStatsInPbtxt (List.replicate 20 'x') (fun _ => [.append ["a".toList, ": 1".toList]])
    someFactory = some ("a: 1regionxxxxxxxxxx".toList, 10) := by decide

/-- A report that does not fit: the number returned says so. -/
example : getStatsInPbtxt (List.replicate 8 'x') (fun _ => [.append ["a".toList, ": 1".toList]])
    someFactory = some ("a: 1regi".toList, 10) := by decide

/-- A `printf` that is cut off keeps a terminating zero; a later, shorter one is not stored in its
place. -/
example : print (List.replicate 6 'x') [.printf "abcdefgh".toList, .printf "z".toList] =
    some ⟨"abcde".toList ++ [NUL], 0, 0, 9⟩ := by decide

example : mallocStats (List.replicate 65536 'x') (fun _ => [.printf "live: 3\n".toList]) =
    some "live: 3\n".toList := by
  rw [mallocStats_exact _ (by rw [List.length_replicate]) _ (by simp [Op.Sound]) (by simp [Op.IsPrintf])
    (by decide)]
  congr 1

/-- A text-proto report need not be terminated: `Append` stores no zero. -/
theorem pbtxt_not_terminated :
    ∃ b dump, getStatsInPbtxt b dump defaultFactory = some ("a: 1".toList, 4) ∧
      NUL ∉ "a: 1".toList ∧ b.length = 4 ∧ ∀ l, ∀ o ∈ dump l, o.Sound :=
  ⟨List.replicate 4 'x', fun _ => [.append ["a".toList, ": 1".toList]], by decide, by decide,
    by decide, by intro l o ho; simp at ho; subst ho; trivial⟩

/-- When the statistics alone fill the buffer the factory is not asked, so the number returned is
less than what a sufficient buffer would have taken.  (It still says that the report was cut
off.) -/
theorem pbtxt_undercount :
    ∃ b dump b' r, getStatsInPbtxt b dump someFactory = some (b', r) ∧ 0 < b.length ∧
      (∀ l, ∀ o ∈ dump l, o.Sound) ∧ r < (textOf (dump 1) ++ "region".toList).length :=
  ⟨List.replicate 4 'x', fun _ => [.append ["a".toList, ": 1".toList]], "a: 1".toList, 4,
    by decide, by decide, by intro l o ho; simp at ho; subst ho; trivial, by decide⟩

end Verif.StatsText
