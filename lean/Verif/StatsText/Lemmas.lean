import Verif.StatsText.Spec
namespace Verif.StatsText

theorem store_eq {b : List Char} {pos : Nat} {s : List Char} (h : pos + s.length ≤ b.length) :
    store b pos s = some (b.take pos ++ s ++ b.drop (pos + s.length)) := by
  simp [store, h]

theorem store_length {b : List Char} {pos : Nat} {s : List Char} {b' : List Char}
    (h : store b pos s = some b') : b'.length = b.length := by
  unfold store at h
  split at h
  · cases h
    simp
    omega
  · cases h

theorem spliced_length {b : List Char} {pos : Nat} {s : List Char}
    (h : pos + s.length ≤ b.length) :
    (b.take pos ++ s ++ b.drop (pos + s.length)).length = b.length := by
  simp
  omega

theorem copyPieces_eq : ∀ (ps : List (List Char)) (b : List Char) (pos : Nat),
    pos + totalSize ps ≤ b.length →
    copyPieces ps (b, pos) =
      some (b.take pos ++ ps.flatten ++ b.drop (pos + totalSize ps), pos + totalSize ps)
  | [], b, pos, _ => by simp [copyPieces, totalSize]
  | s :: ss, b, pos, h => by
    have ht : totalSize (s :: ss) = s.length + totalSize ss := by simp [totalSize]
    rw [ht] at h ⊢
    unfold copyPieces
    split
    · rename_i h0
      rw [copyPieces_eq ss b pos (by omega)]
      have : s = [] := List.eq_nil_of_length_eq_zero h0
      subst this
      simp
    · rw [store_eq (by omega)]
      simp only [Option.bind_some]
      rw [copyPieces_eq ss _ _ (by rw [spliced_length (by omega)]; omega)]
      have e1 : (b.take pos ++ s ++ b.drop (pos + s.length)).take (pos + s.length)
          = b.take pos ++ s := by
        rw [List.take_append_of_le_length (by simp; omega), List.take_of_length_le (by simp; omega)]
      have e2 : (b.take pos ++ s ++ b.drop (pos + s.length)).drop (pos + s.length + totalSize ss)
          = b.drop (pos + (s.length + totalSize ss)) := by
        rw [List.drop_append]
        have : (b.take pos ++ s).length = pos + s.length := by simp; omega
        rw [List.drop_of_length_le (by omega), this, List.nil_append, List.drop_drop]
        congr 1
        omega
      rw [e1, e2]
      simp [List.append_assoc, Nat.add_assoc]

theorem totalSize_eq (ps : List (List Char)) : totalSize ps = ps.flatten.length := by
  simp [totalSize, List.length_flatten]

theorem toInt32_small {n : Nat} (h : n < 2147483648) : toInt32 n = n := by
  unfold toInt32
  omega

/-! ### Every store is inside the buffer -/

/-- Holds whatever the calls were. -/
structure InB (n : Nat) (p : Printer) : Prop where
  len : p.buf.length = n
  room : p.pos + p.left ≤ n

theorem mk_some {b : List Char} (h : 0 < b.length) :
    ∃ p, mk b = some p ∧ p.buf = [NUL] ++ b.drop 1 ∧ p.pos = 0 ∧ p.left = b.length ∧
      p.required = 0 := by
  unfold mk
  rw [store_eq (by simp; omega)]
  exact ⟨_, rfl, by simp, rfl, rfl, rfl⟩

theorem afterPrintf_inB {n : Nat} {p : Printer} {b : List Char} {r : Int} (hp : InB n p)
    (hb : b.length = n) : InB n (afterPrintf p b r) := by
  have := hp.room
  unfold afterPrintf
  split
  · exact ⟨hb, by simp only; omega⟩
  · split
    · exact ⟨hb, by simp only; omega⟩
    · exact ⟨hb, by simp only; omega⟩

theorem step_inB {n : Nat} {p : Printer} (hp : InB n p) (o : Op) :
    ∃ p', step p o = some p' ∧ InB n p' := by
  have hr := hp.room
  have hl := hp.len
  cases o with
  | printf s =>
    unfold step snprintf
    dsimp only
    by_cases h0 : p.left = 0
    · rw [if_pos h0]
      exact ⟨_, rfl, afterPrintf_inB hp hl⟩
    · rw [if_neg h0]
      have hle : p.pos + (s.take (p.left - 1) ++ [NUL]).length ≤ p.buf.length := by
        simp
        omega
      rw [store_eq hle]
      exact ⟨_, rfl, afterPrintf_inB hp (by rw [spliced_length hle, hl])⟩
  | printfFail s =>
    unfold step snprintfFail
    dsimp only
    by_cases h0 : p.left = 0
    · rw [if_pos h0]
      exact ⟨_, rfl, afterPrintf_inB hp hl⟩
    · rw [if_neg h0]
      have hle : p.pos + (s.take (p.left - 1)).length ≤ p.buf.length := by
        simp
        omega
      rw [store_eq hle]
      exact ⟨_, rfl, afterPrintf_inB hp (by rw [spliced_length hle, hl])⟩
  | append ps =>
    unfold step
    simp only
    split
    · exact ⟨_, rfl, hl, by simp only; omega⟩
    · rw [copyPieces_eq _ _ _ (by omega)]
      refine ⟨_, rfl, ?_, by simp only; omega⟩
      simp only
      rw [totalSize_eq, spliced_length (by rw [← totalSize_eq]; omega), hl]

theorem run_inB {n : Nat} : ∀ (ops : List Op) {p : Printer}, InB n p →
    ∃ p', run p ops = some p' ∧ InB n p'
  | [], p, hp => ⟨p, rfl, hp⟩
  | o :: os, p, hp => by
    obtain ⟨p', h1, h2⟩ := step_inB hp o
    obtain ⟨p'', h3, h4⟩ := run_inB os h2
    exact ⟨p'', by simp [run, h1, h3], h4⟩

theorem print_inB {b : List Char} (h : 0 < b.length) (ops : List Op) :
    ∃ p, print b ops = some p ∧ InB b.length p := by
  obtain ⟨p, h1, h2, h3, h4, -⟩ := mk_some h
  obtain ⟨p', h5, h6⟩ := run_inB (n := b.length) ops (p := p) ⟨by rw [h2]; simp; omega, by omega⟩
  exact ⟨p', by simp [print, h1, h5], h6⟩

/-! ### What the buffer holds -/

/-- After calls whose whole text is `T`, on a buffer whose contents were `b0`. -/
structure Inv (b0 T : List Char) (p : Printer) : Prop where
  len : p.buf.length = b0.length
  room : p.pos + p.left ≤ b0.length
  req : p.required = T.length
  full : b0.length ≤ T.length → p.left = 0
  held : ∃ k, k ≤ b0.length ∧ k ≤ T.length ∧ p.buf.take k = T.take k ∧
    (∀ i, k < i → p.buf[i]? = b0[i]?) ∧
    (T.length < b0.length → k = T.length ∧ p.pos = k ∧ p.left = b0.length - k)

theorem mk_inv {b : List Char} {p : Printer} (h : mk b = some p) (h0 : 0 < b.length) :
    Inv b [] p := by
  obtain ⟨p', h1, h2, h3, h4, h5⟩ := mk_some h0
  rw [h] at h1
  cases h1
  refine ⟨by rw [h2]; simp; omega, by omega, by simpa using h5, 
    fun h => by (rw [List.length_nil] at h; omega),
    0, by omega, by simp, by simp, ?_, ?_⟩
  · intro i hi
    rw [h2]
    match i, hi with
    | i + 1, _ => simp
  · intro _
    exact ⟨rfl, h3, by omega⟩

theorem splice_take {b T s : List Char} {pos j : Nat} (hp : pos = T.length)
    (hb : b.take pos = T.take pos) (hj : j ≤ s.length) (hle : pos + s.length ≤ b.length) :
    (b.take pos ++ s ++ b.drop (pos + s.length)).take (pos + j) = T ++ s.take j := by
  rw [List.take_append_of_le_length (by simp; omega), List.take_append, hb, hp,
    List.take_of_length_le (Nat.le_refl _), List.take_of_length_le (by omega)]
  congr 1
  congr 1
  omega

theorem splice_get {b s : List Char} {pos i : Nat} (hle : pos + s.length ≤ b.length)
    (hi : pos + s.length ≤ i) :
    (b.take pos ++ s ++ b.drop (pos + s.length))[i]? = b[i]? := by
  rw [List.getElem?_append_right (by simp; omega), List.getElem?_drop]
  congr 1
  simp
  omega

theorem step_inv {b0 T : List Char} {p p' : Printer} {o : Op} (hp : Inv b0 T p) (ho : o.Sound)
    (h : step p o = some p') : Inv b0 (T ++ o.text) p' := by
  have hr := hp.room
  have hl := hp.len
  obtain ⟨k, hk1, hk2, hk3, hk4, hk5⟩ := hp.held
  cases o with
  | printfFail s => exact ho.elim
  | printf s =>
    have hs : toInt32 s.length = (s.length : Int) := toInt32_small ho
    unfold step snprintf at h
    dsimp only at h
    simp only [Op.text]
    by_cases hT : T.length < b0.length
    · obtain ⟨e1, e2, e3⟩ := hk5 hT
      have h0 : p.left ≠ 0 := by omega
      rw [if_neg h0] at h
      have hw : (s.take (p.left - 1) ++ [NUL]).length = min (p.left - 1) s.length + 1 := by simp
      have hle : p.pos + (s.take (p.left - 1) ++ [NUL]).length ≤ p.buf.length := by
        rw [hw]
        omega
      rw [store_eq hle, Option.map_some, Option.some.injEq] at h
      have hb : p.buf.take p.pos = T.take p.pos := by rw [e2]; exact hk3
      have hlen : (p.buf.take p.pos ++ (s.take (p.left - 1) ++ [NUL]) ++
          p.buf.drop (p.pos + (s.take (p.left - 1) ++ [NUL]).length)).length = b0.length := by
        rw [spliced_length hle, hl]
      have hget : ∀ i, p.pos + min (p.left - 1) s.length < i →
          (p.buf.take p.pos ++ (s.take (p.left - 1) ++ [NUL]) ++
          p.buf.drop (p.pos + (s.take (p.left - 1) ++ [NUL]).length))[i]? = b0[i]? := by
        intro i hi
        rw [splice_get hle (by rw [hw]; omega)]
        exact hk4 i (by omega)
      have htk := splice_take (b := p.buf) (T := T) (s := s.take (p.left - 1) ++ [NUL])
        (pos := p.pos) (j := min (p.left - 1) s.length) (by omega) hb (by rw [hw]; omega) hle
      have htk2 : (s.take (p.left - 1) ++ [NUL]).take (min (p.left - 1) s.length) =
          s.take (p.left - 1) := by
        rw [List.take_append_of_le_length (by simp), List.take_of_length_le (by simp)]
      rw [htk2] at htk
      have hcut : T ++ s.take (p.left - 1) =
          (T ++ s).take (p.pos + min (p.left - 1) s.length) := by
        rw [List.take_append, List.take_of_length_le (l := T) (by omega)]
        have hm : p.pos + min (p.left - 1) s.length - T.length = min (p.left - 1) s.length := by
          omega
        rw [hm]
        by_cases hc : p.left - 1 ≤ s.length
        · rw [Nat.min_eq_left hc]
        · rw [Nat.min_eq_right (by omega), List.take_of_length_le (by omega),
            List.take_of_length_le (Nat.le_refl _)]
      rw [hcut] at htk
      rw [hs] at h
      unfold afterPrintf at h
      rw [if_neg (by omega)] at h
      simp only [Int.toNat_natCast] at h
      split at h
      · subst h
        refine ⟨hlen, by simp only; omega, by simp [hp.req], fun _ => rfl,
          p.pos + min (p.left - 1) s.length, by omega, by simp; omega, htk, hget, ?_⟩
        intro h
        simp at h
        omega
      · subst h
        refine ⟨hlen, by simp only; omega, by simp [hp.req], ?_,
          p.pos + min (p.left - 1) s.length, by omega, by simp; omega, htk, hget, ?_⟩
        · intro h
          simp at h ⊢
          omega
        · intro h
          simp at h ⊢
          omega
    · have h0 : p.left = 0 := hp.full (by omega)
      rw [if_pos h0, Option.map_some, Option.some.injEq, hs] at h
      unfold afterPrintf at h
      rw [if_neg (by omega)] at h
      simp only [Int.toNat_natCast] at h
      have hlong : ¬ (T ++ s).length < b0.length := by simp; omega
      have hk3' : p.buf.take k = (T ++ s).take k := by
        rw [List.take_append_of_le_length hk2]
        exact hk3
      split at h
      · subst h
        exact ⟨hl, by simp only; omega, by simp [hp.req], fun _ => rfl,
          k, hk1, by simp; omega, hk3', hk4, fun h => absurd h hlong⟩
      · subst h
        exact ⟨hl, by simp only; omega, by simp [hp.req], fun _ => by simp only; omega,
          k, hk1, by simp; omega, hk3', hk4, fun h => absurd h hlong⟩
  | append ps =>
    unfold step at h
    simp only [Op.text] at h ⊢
    rw [totalSize_eq] at h
    have hk3' : ∀ s : List Char, p.buf.take k = (T ++ s).take k := fun s => by
      rw [List.take_append_of_le_length hk2]
      exact hk3
    by_cases hc : p.left < ps.flatten.length
    · rw [if_pos hc] at h
      cases h
      have hlong : ¬ (T ++ ps.flatten).length < b0.length := by
        intro hlt
        rw [List.length_append] at hlt
        have := hk5 (by omega)
        omega
      exact ⟨hl, by simp only; omega, by simp only [List.length_append, hp.req], fun _ => rfl,
        k, hk1, by rw [List.length_append]; omega, hk3' _, hk4, fun h => absurd h hlong⟩
    · rw [if_neg hc] at h
      have hle : p.pos + ps.flatten.length ≤ p.buf.length := by omega
      rw [copyPieces_eq _ _ _ (by rw [totalSize_eq]; exact hle), totalSize_eq] at h
      simp only [Option.map_some, Option.some.injEq] at h
      subst h
      have hlen := spliced_length hle
      by_cases hT : T.length < b0.length
      · obtain ⟨e1, e2, e3⟩ := hk5 hT
        have htk := splice_take (b := p.buf) (T := T) (s := ps.flatten) (pos := p.pos)
          (j := ps.flatten.length) (by omega) (by rw [e2]; exact hk3) (by omega) hle
        refine ⟨by rw [hlen, hl], by simp only; omega, by simp only [List.length_append, hp.req],
          ?_, p.pos + ps.flatten.length, by omega, by rw [List.length_append]; omega, ?_, ?_, ?_⟩
        · intro h
          rw [List.length_append] at h
          simp only
          omega
        · simp only
          rw [htk, List.take_of_length_le (Nat.le_refl _), List.take_of_length_le]
          rw [List.length_append]
          omega
        · intro i hi
          simp only
          rw [splice_get hle (by omega)]
          exact hk4 i (by omega)
        · intro h
          rw [List.length_append] at h
          exact ⟨by rw [List.length_append]; omega, rfl, by dsimp only; omega⟩
      · have h0 : p.left = 0 := hp.full (by omega)
        have hz : ps.flatten = [] := List.eq_nil_of_length_eq_zero (by omega)
        rw [hz]
        simp only [List.length_nil, Nat.add_zero, List.append_nil, List.take_append_drop,
          Nat.sub_zero]
        exact ⟨hl, hr, by simpa using hp.req, fun _ => h0, k, hk1, hk2, hk3, hk4,
          fun h => absurd h hT⟩

theorem run_inv : ∀ (ops : List Op) {b0 T : List Char} {p p' : Printer}, Inv b0 T p →
    (∀ o ∈ ops, o.Sound) → run p ops = some p' → Inv b0 (T ++ textOf ops) p'
  | [], b0, T, p, p', hp, _, h => by
    simp only [run, Option.some.injEq] at h
    subst h
    simpa [textOf] using hp
  | o :: os, b0, T, p, p', hp, ho, h => by
    unfold run at h
    cases hs : step p o with
    | none => simp [hs] at h
    | some q =>
      rw [hs, Option.bind_some] at h
      have hq := step_inv hp (ho o (by simp)) hs
      have := run_inv os hq (fun o' h' => ho o' (by simp [h'])) h
      simpa [textOf, List.append_assoc] using this

theorem print_inv {b : List Char} {ops : List Op} (h0 : 0 < b.length)
    (ho : ∀ o ∈ ops, o.Sound) : ∃ p, print b ops = some p ∧ Inv b (textOf ops) p := by
  obtain ⟨p, h1, -⟩ := print_inB h0 ops
  refine ⟨p, h1, ?_⟩
  unfold print at h1
  cases hm : mk b with
  | none => simp [hm] at h1
  | some q =>
    rw [hm, Option.bind_some] at h1
    simpa using run_inv ops (mk_inv hm h0) ho h1

/-! ### `printf` alone -/

/-- As much as fits is stored and the text is terminated. -/
structure InvP (b0 T : List Char) (p : Printer) : Prop where
  take : p.buf.take (min T.length (b0.length - 1)) = T.take (b0.length - 1)
  nul : p.buf[min T.length (b0.length - 1)]? = some NUL

theorem splice_nul {b s : List Char} {pos : Nat} (hle : pos + (s.length + 1) ≤ b.length) :
    (b.take pos ++ (s ++ [NUL]) ++ b.drop (pos + (s ++ [NUL]).length))[pos + s.length]? =
      some NUL := by
  rw [List.append_assoc, List.getElem?_append_right (by simp; omega)]
  have : pos + s.length - (b.take pos).length = s.length := by simp; omega
  rw [this, List.append_assoc, List.getElem?_append_right (Nat.le_refl _)]
  simp

theorem step_invP {b0 T : List Char} {p p' : Printer} {s : List Char} (hp : Inv b0 T p)
    (hq : InvP b0 T p) (h0 : 0 < b0.length) (ho : s.length < 2147483648)
    (h : step p (.printf s) = some p') : InvP b0 (T ++ s) p' := by
  have hl := hp.len
  obtain ⟨k, hk1, hk2, hk3, hk4, hk5⟩ := hp.held
  have hbuf : ∀ (b : List Char), (afterPrintf p b (toInt32 s.length)).buf = b := by
    intro b
    unfold afterPrintf
    split
    · rfl
    · split <;> rfl
  unfold step snprintf at h
  dsimp only at h
  by_cases hT : T.length < b0.length
  · obtain ⟨e1, e2, e3⟩ := hk5 hT
    rw [if_neg (by omega)] at h
    have hw : (s.take (p.left - 1) ++ [NUL]).length = min (p.left - 1) s.length + 1 := by simp
    have hle : p.pos + (s.take (p.left - 1) ++ [NUL]).length ≤ p.buf.length := by
      rw [hw]
      omega
    rw [store_eq hle, Option.map_some, Option.some.injEq] at h
    subst h
    have hidx : min (T ++ s).length (b0.length - 1) = p.pos + (s.take (p.left - 1)).length := by
      simp
      omega
    constructor
    · rw [hbuf, hidx]
      have htk := splice_take (b := p.buf) (T := T) (s := s.take (p.left - 1) ++ [NUL])
        (pos := p.pos) (j := (s.take (p.left - 1)).length) (by omega) (by rw [e2]; exact hk3)
        (by simp) hle
      rw [htk, List.take_append_of_le_length (Nat.le_refl _),
        List.take_of_length_le (Nat.le_refl _), List.take_append,
        List.take_of_length_le (l := T) (by omega)]
      congr 2
      omega
    · rw [hbuf, hidx]
      exact splice_nul (by rw [hw] at hle; simp; omega)
  · rw [if_pos (hp.full (by omega)), Option.map_some, Option.some.injEq] at h
    subst h
    have hm : min (T ++ s).length (b0.length - 1) = min T.length (b0.length - 1) := by
      simp
      omega
    constructor
    · rw [hbuf, hm, hq.take, List.take_append_of_le_length (by omega)]
    · rw [hbuf, hm]
      exact hq.nul

theorem run_invP : ∀ (ops : List Op) {b0 T : List Char} {p p' : Printer}, Inv b0 T p →
    InvP b0 T p → 0 < b0.length → (∀ o ∈ ops, o.Sound) → (∀ o ∈ ops, o.IsPrintf) →
    run p ops = some p' → InvP b0 (T ++ textOf ops) p'
  | [], b0, T, p, p', _, hp, _, _, _, h => by
    simp only [run, Option.some.injEq] at h
    subst h
    simpa [textOf] using hp
  | o :: os, b0, T, p, p', hi, hp, h0, ho, hpf, h => by
    unfold run at h
    cases hs : step p o with
    | none => simp [hs] at h
    | some q =>
      rw [hs, Option.bind_some] at h
      have hq := step_inv hi (ho o (by simp)) hs
      cases o with
      | printf s =>
        have hq' := step_invP hi hp h0 (ho (.printf s) (by simp)) hs
        have := run_invP os hq hq' h0 (fun o' h' => ho o' (by simp [h']))
          (fun o' h' => hpf o' (by simp [h'])) h
        simpa [textOf, Op.text, List.append_assoc] using this
      | printfFail s => exact (hpf (.printfFail s) (by simp)).elim
      | append s => exact (hpf (.append s) (by simp)).elim

/-! ### `Append` alone -/

/-- All of the text is stored if it fits, without room for a terminating zero. -/
def InvA (b0 T : List Char) (p : Printer) : Prop :=
  T.length ≤ b0.length → p.pos = T.length ∧ p.left = b0.length - T.length ∧
    p.buf.take T.length = T

theorem step_invA {b0 T : List Char} {p p' : Printer} {ps : List (List Char)}
    (hl : p.buf.length = b0.length) (hq : InvA b0 T p)
    (h : step p (.append ps) = some p') : InvA b0 (T ++ ps.flatten) p' := by
  intro hT
  rw [List.length_append] at hT ⊢
  obtain ⟨h1, h2, h3⟩ := hq (by omega)
  unfold step at h
  simp only at h
  rw [totalSize_eq, if_neg (by omega)] at h
  have hle : p.pos + ps.flatten.length ≤ p.buf.length := by omega
  rw [copyPieces_eq _ _ _ (by rw [totalSize_eq]; exact hle), totalSize_eq] at h
  simp only [Option.map_some, Option.some.injEq] at h
  subst h
  refine ⟨by simp only; omega, by simp only; omega, ?_⟩
  have htk := splice_take (b := p.buf) (T := T) (s := ps.flatten) (pos := p.pos)
    (j := ps.flatten.length) h1 (by rw [h1, h3, List.take_of_length_le (Nat.le_refl _)])
    (Nat.le_refl _) hle
  simp only
  rw [← h1, htk, List.take_of_length_le (Nat.le_refl _)]

end Verif.StatsText
