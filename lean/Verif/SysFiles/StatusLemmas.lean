import Verif.SysFiles.Status
/-! Lemmas about the reader of `/proc/self/status`. -/
namespace Verif.SysFiles

theorem cut_none {c : Char} {l : List Char} (h : c ∉ l) : cut c l = none := by
  induction l with
  | nil => rfl
  | cons x l ih =>
    simp only [List.mem_cons, not_or] at h
    unfold cut
    rw [if_neg (fun e => h.1 e.symm), ih h.2]; rfl

theorem cut_some {c : Char} {l r : List Char} (h : c ∉ l) : cut c (l ++ c :: r) = some (l, r) := by
  induction l with
  | nil => simp [cut]
  | cons x l ih =>
    simp only [List.mem_cons, not_or] at h
    show cut c (x :: (l ++ c :: r)) = _
    unfold cut
    rw [if_neg (fun e => h.1 e.symm), ih h.2]; rfl

theorem cut_cases (c : Char) (l : List Char) : (c ∉ l ∧ cut c l = none) ∨ ∃ a b, c ∉ a ∧ l = a ++ c :: b ∧ cut c l = some (a, b) := by
  induction l with
  | nil => exact .inl ⟨List.not_mem_nil, rfl⟩
  | cons x l ih =>
    by_cases hx : x = c
    · subst hx
      exact .inr ⟨[], l, List.not_mem_nil, rfl, by simp [cut]⟩
    · rcases ih with ⟨h1, h2⟩ | ⟨a, b, h1, h2, h3⟩
      · refine .inl ⟨?_, ?_⟩
        · simp only [List.mem_cons, not_or]; exact ⟨fun e => hx e.symm, h1⟩
        · unfold cut; rw [if_neg hx, h2]; rfl
      · refine .inr ⟨x :: a, b, ?_, ?_, ?_⟩
        · simp only [List.mem_cons, not_or]; exact ⟨fun e => hx e.symm, h1⟩
        · rw [h2]; rfl
        · unfold cut; rw [if_neg hx, h3]; rfl

/-! ### The reader, character by character -/

/-- The buffer takes one more character. -/
def feed (K : Nat) (s : Mem × List Char) (c : Char) : Mem × List Char :=
  if c = '\n' then (s.1.line s.2, [])
  else if s.2.length + 1 = K then (s.1, []) else (s.1, s.2 ++ [c])

theorem feed_plain {K : Nat} {m : Mem} : ∀ {l buf : List Char}, '\n' ∉ l → buf.length + l.length < K →
    l.foldl (feed K) (m, buf) = (m, buf ++ l)
  | [], buf, _, _ => by simp
  | c :: l, buf, h, hl => by
    simp only [List.mem_cons, not_or] at h
    simp only [List.length_cons] at hl
    rw [List.foldl_cons]
    have : feed K (m, buf) c = (m, buf ++ [c]) := by
      unfold feed
      rw [if_neg (fun e => h.1 e.symm), if_neg (by show ¬ buf.length + 1 = K; omega)]
    rw [this, feed_plain h.2 (by simp; omega)]
    simp

theorem feed_full {K : Nat} {m : Mem} : ∀ {l buf : List Char}, '\n' ∉ l → buf.length < K → buf.length + l.length = K →
    l.foldl (feed K) (m, buf) = (m, [])
  | [], buf, _, _, hl => by simp at hl; omega
  | c :: l, buf, h, hb, hl => by
    simp only [List.mem_cons, not_or] at h
    simp only [List.length_cons] at hl
    rw [List.foldl_cons]
    by_cases hk : buf.length + 1 = K
    · have : l = [] := List.length_eq_zero_iff.1 (by omega)
      subst this
      unfold feed
      rw [if_neg (fun e => h.1 e.symm), if_pos hk]; rfl
    · have : feed K (m, buf) c = (m, buf ++ [c]) := by
        unfold feed
        rw [if_neg (fun e => h.1 e.symm), if_neg hk]
      rw [this]
      exact feed_full h.2 (by simp; omega) (by simp; omega)

/-- One round of the loop over the lines does what the characters do one by one. -/
theorem lines_feed {K : Nat} : ∀ {fuel : Nat} {m : Mem} {buf got : List Char}, '\n' ∉ buf → buf.length < K →
    buf.length + got.length ≤ K → (buf ++ got).length ≤ fuel →
    let r := lines fuel m (buf ++ got)
    (r.1, if r.2.length = K then [] else r.2) = got.foldl (feed K) (m, buf) ∧ '\n' ∉ r.2 ∧ r.2.length ≤ K
  | 0, m, buf, got, hb, hk, hl, hf => by
    rw [List.length_append] at hf
    have h1 : buf = [] := List.length_eq_zero_iff.1 (by omega)
    have h2 : got = [] := List.length_eq_zero_iff.1 (by omega)
    subst h1; subst h2
    refine ⟨?_, List.not_mem_nil, Nat.zero_le _⟩
    show (m, if 0 = K then [] else []) = (m, [])
    split <;> rfl
  | fuel + 1, m, buf, got, hb, hk, hl, hf => by
    rcases cut_cases '\n' got with ⟨h1, -⟩ | ⟨a, b, h1, h2, -⟩
    · have hn : '\n' ∉ buf ++ got := by simp [hb, h1]
      have hr : lines (fuel + 1) m (buf ++ got) = (m, buf ++ got) := by
        unfold lines
        rw [cut_none hn]
      rw [hr]
      refine ⟨?_, hn, by simp; omega⟩
      by_cases hkk : buf.length + got.length = K
      · rw [feed_full h1 hk hkk]
        show (m, if (buf ++ got).length = K then [] else buf ++ got) = _
        rw [if_pos (by simp; omega)]
      · rw [feed_plain h1 (by omega)]
        show (m, if (buf ++ got).length = K then [] else buf ++ got) = _
        rw [if_neg (by simp; omega)]
    · subst h2
      have hn : '\n' ∉ buf ++ a := by simp [hb, h1]
      have hr : lines (fuel + 1) m (buf ++ (a ++ '\n' :: b)) = lines fuel (m.line (buf ++ a)) ([] ++ b) := by
        rw [← List.append_assoc]
        rw [lines, cut_some hn]
        rfl
      simp only [List.length_append, List.length_cons] at hl hf
      rw [hr]
      have := lines_feed (fuel := fuel) (m := m.line (buf ++ a)) (buf := []) (got := b) (K := K) List.not_mem_nil (by simp; omega)
        (by simp; omega) (by simp; omega)
      refine ⟨this.1.trans ?_, this.2⟩
      rw [List.foldl_append, feed_plain h1 (by omega), List.foldl_cons]
      unfold feed
      rw [if_pos rfl]

/-- All reads. -/
theorem reads_feed {K : Nat} : ∀ {ns : List Nat} {m : Mem} {buf file : List Char}, '\n' ∉ buf → buf.length < K →
    ∃ got buf', file = got ++ (reads K m buf file ns).2 ∧ got.foldl (feed K) (m, buf) = ((reads K m buf file ns).1, buf')
  | [], m, buf, file, _, _ => ⟨[], buf, rfl, rfl⟩
  | n :: ns, m, buf, file, hb, hk => by
    unfold reads
    dsimp only
    by_cases hg : file.take (min n (K - buf.length)) = []
    · rw [if_pos hg]; exact ⟨[], buf, rfl, rfl⟩
    · rw [if_neg hg]
      generalize hgot : file.take (min n (K - buf.length)) = got at hg ⊢
      have hlen : got.length ≤ K - buf.length := by rw [← hgot, List.length_take]; omega
      have hfile : file = got ++ file.drop got.length := by
        rw [← hgot, List.length_take]
        conv => lhs; rw [← List.take_append_drop (min n (K - buf.length)) file]
        congr 1
        generalize min n (K - buf.length) = q
        by_cases h : q ≤ file.length
        · rw [Nat.min_eq_left h]
        · rw [Nat.min_eq_right (by omega), List.drop_of_length_le (by omega), List.drop_of_length_le (Nat.le_refl _)]
      obtain ⟨h1, h2, h3⟩ := lines_feed (K := K) (fuel := (buf ++ got).length) (m := m) hb hk (got := got) (by omega) (Nat.le_refl _)
      generalize lines (buf ++ got).length m (buf ++ got) = r at h1 h2 h3
      obtain ⟨m', rest⟩ := r
      dsimp only at h1 h2 h3 ⊢
      obtain ⟨got', buf', e1, e2⟩ := reads_feed (K := K) (ns := ns) (m := m') (buf := if rest.length = K then [] else rest)
        (file := file.drop got.length) (by split; exact List.not_mem_nil; exact h2) (by split; (simp; omega); omega)
      refine ⟨got ++ got', buf', ?_, ?_⟩
      · rw [List.append_assoc, ← e1]; exact hfile
      · rw [List.foldl_append, ← h1]; exact e2

/-- A line: what is left of it in the buffer when it ends. -/
theorem feed_line {K : Nat} (hK : 0 < K) : ∀ {n : Nat} {l : List Char} {m : Mem}, l.length ≤ n → '\n' ∉ l →
    (l ++ ['\n']).foldl (feed K) (m, []) = (m.line (l.drop (l.length / K * K)), [])
  | 0, l, m, hn, _ => by
    have : l = [] := List.length_eq_zero_iff.1 (by omega)
    subst this
    simp [feed]
  | n + 1, l, m, hn, h => by
    by_cases hlt : l.length < K
    · rw [List.foldl_append, feed_plain h (by simpa using hlt), Nat.div_eq_of_lt hlt]
      simp [feed]
    · have hs : l = l.take K ++ l.drop K := (List.take_append_drop K l).symm
      have ht : '\n' ∉ l.take K := fun hh => h (List.mem_of_mem_take hh)
      have hd : '\n' ∉ l.drop K := fun hh => h (List.mem_of_mem_drop hh)
      have h1 : (l ++ ['\n']).foldl (feed K) (m, []) = (l.drop K ++ ['\n']).foldl (feed K) (m, []) := by
        conv => lhs; rw [hs, List.append_assoc, List.foldl_append]
        rw [feed_full ht (by simpa using hK) (by simp; omega)]
      rw [h1, feed_line hK (n := n) (by simp; omega) hd, List.drop_drop, List.length_drop]
      congr 3
      have : l.length / K = (l.length - K) / K + 1 := by
        rw [Nat.div_eq_sub_div hK (by omega)]
      rw [this, Nat.add_mul]; omega

theorem feed_lines {K : Nat} (hK : 0 < K) : ∀ {ls : List (List Char)} {m : Mem}, (∀ l ∈ ls, '\n' ∉ l) →
    (ls.flatMap fun l => l ++ ['\n']).foldl (feed K) (m, []) = (ls.foldl (fun m l => m.line (l.drop (l.length / K * K))) m, [])
  | [], m, _ => rfl
  | l :: ls, m, h => by
    rw [List.flatMap_cons, List.foldl_append, feed_line hK (Nat.le_refl _) (h l (.head _)), feed_lines hK fun l' hl => h l' (.tail _ hl)]
    rfl

theorem feed_tail {K : Nat} {m : Mem} : ∀ {l buf : List Char}, '\n' ∉ l → (l.foldl (feed K) (m, buf)).1 = m
  | [], _, _ => rfl
  | c :: l, buf, h => by
    simp only [List.mem_cons, not_or] at h
    rw [List.foldl_cons]
    have : feed K (m, buf) c = (m, if buf.length + 1 = K then [] else buf ++ [c]) := by
      unfold feed
      rw [if_neg (fun e => h.1 e.symm)]
      by_cases hk : buf.length + 1 = K
      · rw [if_pos hk, if_pos hk]
      · rw [if_neg hk, if_neg hk]
    rw [this]
    exact feed_tail h.2

/-! ### Numbers -/

theorem digit_of {c : Char} (h : c.isDigit = true) : digit c = some (c.toNat - 48) := by
  have : 48 ≤ c.toNat ∧ c.toNat ≤ 57 := by
    simp only [Char.isDigit, Bool.and_eq_true, decide_eq_true_eq] at h
    exact ⟨UInt32.le_iff_toNat_le.1 h.1, UInt32.le_iff_toNat_le.1 h.2⟩
  unfold digit
  rw [if_pos this]

theorem le_ofDigitChars : ∀ {l : List Char} {acc : Nat}, acc ≤ Nat.ofDigitChars 10 l acc
  | [], acc => by simp [Nat.ofDigitChars_nil]
  | c :: l, acc => by
    rw [Nat.ofDigitChars_cons]
    exact Nat.le_trans (by omega) le_ofDigitChars

theorem digits_of : ∀ {l : List Char} {acc : Nat}, (∀ c ∈ l, c.isDigit = true) → Nat.ofDigitChars 10 l acc < 2 ^ 64 →
    digits acc l = some (Nat.ofDigitChars 10 l acc)
  | [], acc, _, _ => by simp [digits, Nat.ofDigitChars_nil]
  | c :: l, acc, h, hl => by
    rw [Nat.ofDigitChars_cons] at hl ⊢
    have e : 10 * acc + (c.toNat - '0'.toNat) = acc * 10 + (c.toNat - 48) := by
      show 10 * acc + (c.toNat - 48) = _; omega
    rw [e] at hl ⊢
    unfold digits
    rw [digit_of (h c (.head _))]
    dsimp only
    rw [if_pos (Nat.lt_of_le_of_lt le_ofDigitChars hl)]
    exact digits_of (fun c hc => h c (.tail _ hc)) hl

theorem not_space {c : Char} (h : c.isDigit = true) : isSpace c = false := by
  have : 48 ≤ c.toNat ∧ c.toNat ≤ 57 := by
    simp only [Char.isDigit, Bool.and_eq_true, decide_eq_true_eq] at h
    exact ⟨UInt32.le_iff_toNat_le.1 h.1, UInt32.le_iff_toNat_le.1 h.2⟩
  unfold isSpace
  have h1 : c ≠ ' ' := by
    rintro rfl
    exact absurd this.1 (by decide)
  have h2 : ¬ c.toNat ≤ 13 := by omega
  simp [h1, h2]

theorem dropWhile_all {p : Char → Bool} : ∀ {l r : List Char}, (∀ c ∈ l, p c = true) → (l ++ r).dropWhile p = r.dropWhile p
  | [], r, _ => rfl
  | c :: l, r, h => by
    show ((c :: (l ++ r)).dropWhile p) = _
    rw [List.dropWhile_cons_of_pos (h c (.head _))]
    exact dropWhile_all fun c hc => h c (.tail _ hc)

/-- Stripping white space before a text that begins and ends with something else. -/
theorem strip_of {pad mid : List Char} (hp : ∀ c ∈ pad, isSpace c = true) (hm : mid ≠ [])
    (h1 : ∀ c, mid.head? = some c → isSpace c = false) (h2 : ∀ c, mid.getLast? = some c → isSpace c = false) :
    strip (pad ++ mid) = mid := by
  unfold strip
  rw [dropWhile_all hp]
  have e1 : mid.dropWhile isSpace = mid := by
    cases mid with
    | nil => exact absurd rfl hm
    | cons c l => exact List.dropWhile_cons_of_neg (by rw [h1 c rfl]; decide)
  rw [e1]
  have e2 : mid.reverse.dropWhile isSpace = mid.reverse := by
    cases hr : mid.reverse with
    | nil => rfl
    | cons c l =>
      have : mid.getLast? = some c := by
        rw [← List.head?_reverse, hr]; rfl
      exact List.dropWhile_cons_of_neg (by rw [h2 c this]; decide)
  rw [e2, List.reverse_reverse]

end Verif.SysFiles
