import Verif.SysFiles.StatusLemmas
/-! C74: the memory statistics read from `/proc/self/status` do not depend on how the file is read. -/
namespace Verif.SysFiles

/-- A line of the file: a key, white space, a number and perhaps the unit; or any other text. -/
inductive Line
  | entry (key pad : List Char) (n : Nat) (kb : Bool)
  | other (text : List Char)

/-- As the kernel writes it. -/
def Line.text : Line → List Char
  | .entry key pad n kb => key ++ [':'] ++ pad ++ Nat.toDigits 10 n ++ (if kb then [' ', 'k', 'B'] else [])
  | .other t => t

/-- The fields the statistics are made from. -/
def wanted : List (List Char) :=
  ["VmSize".toList, "VmRSS".toList, "RssFile".toList, "RssShmem".toList, "VmExe".toList, "VmData".toList, "VmStk".toList, "VmPTE".toList]

/-- Keys have no colon; white space is blanks and tabs; values have 64 bits; other text does not begin with a wanted key. A line fits the buffer of `K` characters, or
is another line without a colon after its first `K` characters (say, a long list of groups). -/
def Line.OK (K : Nat) : Line → Prop
  | .entry key pad n kb => ':' ∉ key ∧ '\n' ∉ key ∧ (∀ c ∈ pad, c = ' ' ∨ c = '\t') ∧ n * (if kb then 1024 else 1) < 2 ^ 64 ∧
    (Line.entry key pad n kb).text.length < K
  | .other t => '\n' ∉ t ∧ (∀ k ∈ wanted, ¬ (k ++ [':']) <+: t) ∧ (t.length < K ∨ ':' ∉ t.drop K)

/-- The values, in bytes, of the lines with one of the given keys. -/
def values (ls : List Line) (keys : List String) : List Nat :=
  ls.filterMap fun
    | .entry key _ n kb => if key ∈ keys.map String.toList then some (n * if kb then 1024 else 1) else none
    | .other _ => none

/-- What the statistics should be. -/
def Right (ls : List Line) (m : Mem) : Prop :=
  m.vss = ((values ls ["VmSize"]).getLast?).getD 0 ∧
  m.rss = ((values ls ["VmRSS"]).getLast?).getD 0 ∧
  m.shared = (values ls ["RssFile", "RssShmem"]).sum ∧
  m.code = ((values ls ["VmExe"]).getLast?).getD 0 ∧
  m.data = (values ls ["VmData", "VmStk"]).sum ∧
  m.vmpte = ((values ls ["VmPTE"]).getLast?).getD 0

/-- Every figure has been found. -/
def Complete (ls : List Line) : Prop :=
  ∀ ks ∈ [["VmSize"], ["VmRSS"], ["RssFile", "RssShmem"], ["VmExe"], ["VmData", "VmStk"], ["VmPTE"]], values ls ks ≠ []

instance (ls : List Line) : Decidable (Complete ls) := by unfold Complete; infer_instance

theorem isDigit_toDigits {n : Nat} {c : Char} (h : c ∈ Nat.toDigits 10 n) : c.isDigit = true :=
  Nat.isDigit_of_mem_toDigits (by decide) (by decide) h

theorem atoi_toDigits {n : Nat} (hn : n < 2 ^ 64) : atoi (Nat.toDigits 10 n) = some n := by
  have hne : Nat.toDigits 10 n ≠ [] := Nat.toDigits_ne_nil
  have hs : strip (Nat.toDigits 10 n) = Nat.toDigits 10 n := by
    have := strip_of (pad := []) (mid := Nat.toDigits 10 n) (fun c hc => absurd hc List.not_mem_nil) hne
      (fun c hc => not_space (isDigit_toDigits (List.mem_of_mem_head? hc)))
      (fun c hc => not_space (isDigit_toDigits (List.mem_of_mem_getLast? hc)))
    simpa using this
  have hd : digits 0 (Nat.toDigits 10 n) = some n := by
    have e := Nat.ofDigitChars_ten_toDigits (n := n)
    rw [digits_of (fun c hc => isDigit_toDigits hc) (by rw [e]; exact hn), e]
  have hplus : ∀ r, Nat.toDigits 10 n ≠ '+' :: r := by
    intro r hr
    have : ('+').isDigit = true := isDigit_toDigits (n := n) (by rw [hr]; exact .head _)
    exact absurd this (by decide)
  unfold atoi
  rw [hs]
  split
  · next h => exact absurd h hne
  · next r h => exact absurd h (hplus r)
  · exact hd

/-- A line the kernel writes is read back. -/
theorem field_entry {K : Nat} {key pad : List Char} {n : Nat} {kb : Bool} (h : (Line.entry key pad n kb).OK K) :
    field (Line.entry key pad n kb).text = some (key, n * if kb then 1024 else 1) := by
  obtain ⟨h1, -, h3, h4, -⟩ := h
  have hne : Nat.toDigits 10 n ≠ [] := Nat.toDigits_ne_nil
  have hsp : ∀ c ∈ pad, isSpace c = true := by
    intro c hc
    rcases h3 c hc with rfl | rfl <;> decide
  have hlen : 0 < (Nat.toDigits 10 n).length := Nat.length_toDigits_pos
  have ht : (Line.entry key pad n kb).text = key ++ ':' :: (pad ++ (Nat.toDigits 10 n ++ (if kb then [' ', 'k', 'B'] else []))) := by
    simp [Line.text]
  unfold field
  rw [ht]
  rw [cut_some h1]
  dsimp only
  cases kb with
  | true =>
    simp only [if_true] at h4 ⊢
    rw [strip_of hsp (by simp) (fun c hc => ?_) (fun c hc => ?_)]
    · have hu : unKb (Nat.toDigits 10 n ++ [' ', 'k', 'B']) = (Nat.toDigits 10 n, true) := by
        have e : (Nat.toDigits 10 n ++ [' ', 'k', 'B']).length - kb.length = (Nat.toDigits 10 n).length := by simp [SysFiles.kb]
        unfold unKb
        rw [e, List.drop_left, List.take_left, if_pos ⟨by simp [SysFiles.kb], rfl⟩]
      rw [hu]
      dsimp only
      rw [atoi_toDigits (by omega)]
      simp only [if_true]
      rw [Nat.mod_eq_of_lt h4]
    · rw [List.head?_append, Option.or_eq_some_iff] at hc
      have hc := hc.resolve_right fun h => hne (List.head?_eq_none_iff.1 h.1)
      exact not_space (isDigit_toDigits (List.mem_of_mem_head? hc))
    · rw [List.getLast?_append] at hc
      cases hc
      decide
  | false =>
    simp only [Bool.false_eq_true, if_false, List.append_nil, Nat.mul_one] at h4 ⊢
    rw [strip_of hsp hne (fun c hc => not_space (isDigit_toDigits (List.mem_of_mem_head? hc)))
      (fun c hc => not_space (isDigit_toDigits (List.mem_of_mem_getLast? hc)))]
    have hu : unKb (Nat.toDigits 10 n) = (Nat.toDigits 10 n, false) := by
      unfold unKb
      rw [if_neg]
      rintro ⟨-, h⟩
      have : 'k' ∈ Nat.toDigits 10 n := List.mem_of_mem_drop (by rw [h]; decide)
      exact absurd (isDigit_toDigits this) (by decide)
    rw [hu]
    dsimp only
    rw [atoi_toDigits h4]
    rfl

/-- Any other line changes nothing. -/
theorem line_other {K : Nat} (hK : 0 < K) {t : List Char} (h : (Line.other t).OK K) (m : Mem) : m.line (t.drop (t.length / K * K)) = m := by
  obtain ⟨-, h2, h3⟩ := h
  unfold Mem.line field
  by_cases hlt : t.length < K
  · rw [Nat.div_eq_of_lt hlt, Nat.zero_mul, List.drop_zero]
    rcases cut_cases ':' t with ⟨-, hc⟩ | ⟨a, b, -, he, hc⟩
    · rw [hc]
    · rw [hc]
      dsimp only
      have hk : a ∉ wanted := fun hw => h2 a hw ⟨b, by rw [he]; simp⟩
      have hset : ∀ v, m.set a v = m := by
        intro v
        simp only [wanted, List.mem_cons, List.not_mem_nil, or_false, not_or] at hk
        obtain ⟨k1, k2, k3, k4, k5, k6, k7, k8⟩ := hk
        unfold Mem.set
        rw [if_neg k1, if_neg k2, if_neg (by simp only [not_or]; exact ⟨k3, k4⟩), if_neg k5, if_neg (by simp only [not_or]; exact ⟨k6, k7⟩), if_neg k8]
      cases hat : atoi (unKb (strip b)).1 with
      | none => rfl
      | some v => exact hset _
  · have hc : ':' ∉ t.drop (t.length / K * K) := by
      have h4 : ':' ∉ t.drop K := by rcases h3 with h3 | h3; exact absurd h3 hlt; exact h3
      have h5 : 1 ≤ t.length / K := (Nat.le_div_iff_mul_le hK).2 (by omega)
      have h6 : K ≤ t.length / K * K := by
        have := Nat.mul_le_mul_right K h5
        omega
      intro hm
      apply h4
      have : t.drop (t.length / K * K) = (t.drop K).drop (t.length / K * K - K) := by rw [List.drop_drop]; congr 1; omega
      rw [this] at hm
      exact List.mem_of_mem_drop hm
    rw [cut_none hc]

/-- What one line does. -/
def step (m : Mem) : Line → Mem
  | .entry key _ n kb => m.set key (n * if kb then 1024 else 1)
  | .other _ => m

theorem line_step {K : Nat} (hK : 0 < K) {l : Line} (h : l.OK K) (m : Mem) : m.line (l.text.drop (l.text.length / K * K)) = step m l := by
  cases l with
  | other t => exact line_other hK h m
  | entry key pad n kb =>
    have hlt := h.2.2.2.2
    rw [Nat.div_eq_of_lt hlt, Nat.zero_mul, List.drop_zero]
    unfold Mem.line
    rw [field_entry h]
    rfl

theorem values_cons_other (t : List Char) (ls : List Line) (ks : List String) : values (.other t :: ls) ks = values ls ks := rfl

theorem values_cons_in {key : List Char} {ks : List String} (h : key ∈ ks.map String.toList) (pad : List Char) (n : Nat) (kb : Bool) (ls : List Line) :
    values (.entry key pad n kb :: ls) ks = (n * if kb then 1024 else 1) :: values ls ks := by
  unfold values
  rw [List.filterMap_cons_some]
  simp only
  rw [if_pos h]

theorem values_cons_out {key : List Char} {ks : List String} (h : key ∉ ks.map String.toList) (pad : List Char) (n : Nat) (kb : Bool) (ls : List Line) :
    values (.entry key pad n kb :: ls) ks = values ls ks := by
  unfold values
  rw [List.filterMap_cons_none]
  simp only
  rw [if_neg h]

/-- The lines, one after the other, from any figures. -/
structure From (m0 : Mem) (ls : List Line) (m : Mem) : Prop where
  vss : m.vss = ((values ls ["VmSize"]).getLast?).getD m0.vss
  rss : m.rss = ((values ls ["VmRSS"]).getLast?).getD m0.rss
  shared : m.shared = m0.shared + (values ls ["RssFile", "RssShmem"]).sum
  code : m.code = ((values ls ["VmExe"]).getLast?).getD m0.code
  data : m.data = m0.data + (values ls ["VmData", "VmStk"]).sum
  vmpte : m.vmpte = ((values ls ["VmPTE"]).getLast?).getD m0.vmpte
  seen : m.seen = m0.seen ||| (if values ls ["VmSize"] = [] then 0 else 1) ||| (if values ls ["VmRSS"] = [] then 0 else 2) |||
    (if values ls ["RssFile", "RssShmem"] = [] then 0 else 4) ||| (if values ls ["VmExe"] = [] then 0 else 8) |||
    (if values ls ["VmData", "VmStk"] = [] then 0 else 16) ||| (if values ls ["VmPTE"] = [] then 0 else 32)

theorem From.refl (m : Mem) : From m [] m := by
  constructor <;> simp [values]

theorem or_self_if (p : Prop) [Decidable p] (b : Nat) : b ||| (if p then 0 else b) = b := by
  split <;> simp

theorem getLast_cons (v : Nat) (l : List Nat) (x : Nat) : ((v :: l).getLast?).getD x = (l.getLast?).getD v := by
  rw [List.getLast?_cons]; rfl

theorem or_at0 {s b x0 x1 x2 x3 x4 x5 : Nat} (h : b ||| x0 = b) : s ||| b ||| x0 ||| x1 ||| x2 ||| x3 ||| x4 ||| x5 = s ||| b ||| x1 ||| x2 ||| x3 ||| x4 ||| x5 := by
  have : s ||| b ||| x0 ||| x1 ||| x2 ||| x3 ||| x4 ||| x5 = (b ||| x0) ||| s ||| x1 ||| x2 ||| x3 ||| x4 ||| x5 := by ac_rfl
  rw [this, h]; ac_rfl

theorem or_at1 {s b x0 x1 x2 x3 x4 x5 : Nat} (h : b ||| x1 = b) : s ||| b ||| x0 ||| x1 ||| x2 ||| x3 ||| x4 ||| x5 = s ||| x0 ||| b ||| x2 ||| x3 ||| x4 ||| x5 := by
  have : s ||| b ||| x0 ||| x1 ||| x2 ||| x3 ||| x4 ||| x5 = (b ||| x1) ||| s ||| x0 ||| x2 ||| x3 ||| x4 ||| x5 := by ac_rfl
  rw [this, h]; ac_rfl

theorem or_at2 {s b x0 x1 x2 x3 x4 x5 : Nat} (h : b ||| x2 = b) : s ||| b ||| x0 ||| x1 ||| x2 ||| x3 ||| x4 ||| x5 = s ||| x0 ||| x1 ||| b ||| x3 ||| x4 ||| x5 := by
  have : s ||| b ||| x0 ||| x1 ||| x2 ||| x3 ||| x4 ||| x5 = (b ||| x2) ||| s ||| x0 ||| x1 ||| x3 ||| x4 ||| x5 := by ac_rfl
  rw [this, h]; ac_rfl

theorem or_at3 {s b x0 x1 x2 x3 x4 x5 : Nat} (h : b ||| x3 = b) : s ||| b ||| x0 ||| x1 ||| x2 ||| x3 ||| x4 ||| x5 = s ||| x0 ||| x1 ||| x2 ||| b ||| x4 ||| x5 := by
  have : s ||| b ||| x0 ||| x1 ||| x2 ||| x3 ||| x4 ||| x5 = (b ||| x3) ||| s ||| x0 ||| x1 ||| x2 ||| x4 ||| x5 := by ac_rfl
  rw [this, h]; ac_rfl

theorem or_at4 {s b x0 x1 x2 x3 x4 x5 : Nat} (h : b ||| x4 = b) : s ||| b ||| x0 ||| x1 ||| x2 ||| x3 ||| x4 ||| x5 = s ||| x0 ||| x1 ||| x2 ||| x3 ||| b ||| x5 := by
  have : s ||| b ||| x0 ||| x1 ||| x2 ||| x3 ||| x4 ||| x5 = (b ||| x4) ||| s ||| x0 ||| x1 ||| x2 ||| x3 ||| x5 := by ac_rfl
  rw [this, h]; ac_rfl

theorem or_at5 {s b x0 x1 x2 x3 x4 x5 : Nat} (h : b ||| x5 = b) : s ||| b ||| x0 ||| x1 ||| x2 ||| x3 ||| x4 ||| x5 = s ||| x0 ||| x1 ||| x2 ||| x3 ||| x4 ||| b := by
  have : s ||| b ||| x0 ||| x1 ||| x2 ||| x3 ||| x4 ||| x5 = (b ||| x5) ||| s ||| x0 ||| x1 ||| x2 ||| x3 ||| x4 := by ac_rfl
  rw [this, h]; ac_rfl

theorem From.cons {m0 m : Mem} {ls : List Line} : ∀ {l : Line}, From (step m0 l) ls m → From m0 (l :: ls) m
  | .other t, h => ⟨h.vss, h.rss, h.shared, h.code, h.data, h.vmpte, h.seen⟩
  | .entry key pad n kb, h => by
    have h' : From (m0.set key (n * if kb then 1024 else 1)) ls m := h
    generalize hv : (n * if kb then 1024 else 1) = v at h'
    obtain ⟨h1, h2, h3, h4, h5, h6, h7⟩ := h'
    have hin : ∀ ks : List String, key ∈ ks.map String.toList → values (.entry key pad n kb :: ls) ks = v :: values ls ks := by
      intro ks hk; rw [values_cons_in hk, hv]
    have hout : ∀ ks : List String, key ∉ ks.map String.toList → values (.entry key pad n kb :: ls) ks = values ls ks := by
      intro ks hk; rw [values_cons_out hk]
    unfold Mem.set at h1 h2 h3 h4 h5 h6 h7
    by_cases k0 : key = "VmSize".toList
    · simp only [if_pos k0] at h1 h2 h3 h4 h5 h6 h7
      subst k0
      refine ⟨?_, ?_, ?_, ?_, ?_, ?_, ?_⟩
      · rw [hin ["VmSize"] (by decide), getLast_cons]; exact h1
      · rw [hout ["VmRSS"] (by decide)]; exact h2
      · rw [hout ["RssFile", "RssShmem"] (by decide)]; exact h3
      · rw [hout ["VmExe"] (by decide)]; exact h4
      · rw [hout ["VmData", "VmStk"] (by decide)]; exact h5
      · rw [hout ["VmPTE"] (by decide)]; exact h6
      · rw [hin ["VmSize"] (by decide), hout ["VmRSS"] (by decide), hout ["RssFile", "RssShmem"] (by decide), hout ["VmExe"] (by decide), hout ["VmData", "VmStk"] (by decide), hout ["VmPTE"] (by decide), h7, if_neg (List.cons_ne_nil _ _)]; exact or_at0 (or_self_if _ _)
    by_cases k1 : key = "VmRSS".toList
    · simp only [if_neg k0, if_pos k1] at h1 h2 h3 h4 h5 h6 h7
      subst k1
      refine ⟨?_, ?_, ?_, ?_, ?_, ?_, ?_⟩
      · rw [hout ["VmSize"] (by decide)]; exact h1
      · rw [hin ["VmRSS"] (by decide), getLast_cons]; exact h2
      · rw [hout ["RssFile", "RssShmem"] (by decide)]; exact h3
      · rw [hout ["VmExe"] (by decide)]; exact h4
      · rw [hout ["VmData", "VmStk"] (by decide)]; exact h5
      · rw [hout ["VmPTE"] (by decide)]; exact h6
      · rw [hout ["VmSize"] (by decide), hin ["VmRSS"] (by decide), hout ["RssFile", "RssShmem"] (by decide), hout ["VmExe"] (by decide), hout ["VmData", "VmStk"] (by decide), hout ["VmPTE"] (by decide), h7, if_neg (List.cons_ne_nil _ _)]; exact or_at1 (or_self_if _ _)
    by_cases k2 : key = "RssFile".toList ∨ key = "RssShmem".toList
    · simp only [if_neg k0, if_neg k1, if_pos k2] at h1 h2 h3 h4 h5 h6 h7
      rcases k2 with rfl | rfl
      · refine ⟨?_, ?_, ?_, ?_, ?_, ?_, ?_⟩
        · rw [hout ["VmSize"] (by decide)]; exact h1
        · rw [hout ["VmRSS"] (by decide)]; exact h2
        · rw [hin ["RssFile", "RssShmem"] (by decide), List.sum_cons, ← Nat.add_assoc]; exact h3
        · rw [hout ["VmExe"] (by decide)]; exact h4
        · rw [hout ["VmData", "VmStk"] (by decide)]; exact h5
        · rw [hout ["VmPTE"] (by decide)]; exact h6
        · rw [hout ["VmSize"] (by decide), hout ["VmRSS"] (by decide), hin ["RssFile", "RssShmem"] (by decide), hout ["VmExe"] (by decide), hout ["VmData", "VmStk"] (by decide), hout ["VmPTE"] (by decide), h7, if_neg (List.cons_ne_nil _ _)]; exact or_at2 (or_self_if _ _)
      · refine ⟨?_, ?_, ?_, ?_, ?_, ?_, ?_⟩
        · rw [hout ["VmSize"] (by decide)]; exact h1
        · rw [hout ["VmRSS"] (by decide)]; exact h2
        · rw [hin ["RssFile", "RssShmem"] (by decide), List.sum_cons, ← Nat.add_assoc]; exact h3
        · rw [hout ["VmExe"] (by decide)]; exact h4
        · rw [hout ["VmData", "VmStk"] (by decide)]; exact h5
        · rw [hout ["VmPTE"] (by decide)]; exact h6
        · rw [hout ["VmSize"] (by decide), hout ["VmRSS"] (by decide), hin ["RssFile", "RssShmem"] (by decide), hout ["VmExe"] (by decide), hout ["VmData", "VmStk"] (by decide), hout ["VmPTE"] (by decide), h7, if_neg (List.cons_ne_nil _ _)]; exact or_at2 (or_self_if _ _)
    by_cases k3 : key = "VmExe".toList
    · simp only [if_neg k0, if_neg k1, if_neg k2, if_pos k3] at h1 h2 h3 h4 h5 h6 h7
      subst k3
      refine ⟨?_, ?_, ?_, ?_, ?_, ?_, ?_⟩
      · rw [hout ["VmSize"] (by decide)]; exact h1
      · rw [hout ["VmRSS"] (by decide)]; exact h2
      · rw [hout ["RssFile", "RssShmem"] (by decide)]; exact h3
      · rw [hin ["VmExe"] (by decide), getLast_cons]; exact h4
      · rw [hout ["VmData", "VmStk"] (by decide)]; exact h5
      · rw [hout ["VmPTE"] (by decide)]; exact h6
      · rw [hout ["VmSize"] (by decide), hout ["VmRSS"] (by decide), hout ["RssFile", "RssShmem"] (by decide), hin ["VmExe"] (by decide), hout ["VmData", "VmStk"] (by decide), hout ["VmPTE"] (by decide), h7, if_neg (List.cons_ne_nil _ _)]; exact or_at3 (or_self_if _ _)
    by_cases k4 : key = "VmData".toList ∨ key = "VmStk".toList
    · simp only [if_neg k0, if_neg k1, if_neg k2, if_neg k3, if_pos k4] at h1 h2 h3 h4 h5 h6 h7
      rcases k4 with rfl | rfl
      · refine ⟨?_, ?_, ?_, ?_, ?_, ?_, ?_⟩
        · rw [hout ["VmSize"] (by decide)]; exact h1
        · rw [hout ["VmRSS"] (by decide)]; exact h2
        · rw [hout ["RssFile", "RssShmem"] (by decide)]; exact h3
        · rw [hout ["VmExe"] (by decide)]; exact h4
        · rw [hin ["VmData", "VmStk"] (by decide), List.sum_cons, ← Nat.add_assoc]; exact h5
        · rw [hout ["VmPTE"] (by decide)]; exact h6
        · rw [hout ["VmSize"] (by decide), hout ["VmRSS"] (by decide), hout ["RssFile", "RssShmem"] (by decide), hout ["VmExe"] (by decide), hin ["VmData", "VmStk"] (by decide), hout ["VmPTE"] (by decide), h7, if_neg (List.cons_ne_nil _ _)]; exact or_at4 (or_self_if _ _)
      · refine ⟨?_, ?_, ?_, ?_, ?_, ?_, ?_⟩
        · rw [hout ["VmSize"] (by decide)]; exact h1
        · rw [hout ["VmRSS"] (by decide)]; exact h2
        · rw [hout ["RssFile", "RssShmem"] (by decide)]; exact h3
        · rw [hout ["VmExe"] (by decide)]; exact h4
        · rw [hin ["VmData", "VmStk"] (by decide), List.sum_cons, ← Nat.add_assoc]; exact h5
        · rw [hout ["VmPTE"] (by decide)]; exact h6
        · rw [hout ["VmSize"] (by decide), hout ["VmRSS"] (by decide), hout ["RssFile", "RssShmem"] (by decide), hout ["VmExe"] (by decide), hin ["VmData", "VmStk"] (by decide), hout ["VmPTE"] (by decide), h7, if_neg (List.cons_ne_nil _ _)]; exact or_at4 (or_self_if _ _)
    by_cases k5 : key = "VmPTE".toList
    · simp only [if_neg k0, if_neg k1, if_neg k2, if_neg k3, if_neg k4, if_pos k5] at h1 h2 h3 h4 h5 h6 h7
      subst k5
      refine ⟨?_, ?_, ?_, ?_, ?_, ?_, ?_⟩
      · rw [hout ["VmSize"] (by decide)]; exact h1
      · rw [hout ["VmRSS"] (by decide)]; exact h2
      · rw [hout ["RssFile", "RssShmem"] (by decide)]; exact h3
      · rw [hout ["VmExe"] (by decide)]; exact h4
      · rw [hout ["VmData", "VmStk"] (by decide)]; exact h5
      · rw [hin ["VmPTE"] (by decide), getLast_cons]; exact h6
      · rw [hout ["VmSize"] (by decide), hout ["VmRSS"] (by decide), hout ["RssFile", "RssShmem"] (by decide), hout ["VmExe"] (by decide), hout ["VmData", "VmStk"] (by decide), hin ["VmPTE"] (by decide), h7, if_neg (List.cons_ne_nil _ _)]; exact or_at5 (or_self_if _ _)
    simp only [if_neg k0, if_neg k1, if_neg k2, if_neg k3, if_neg k4, if_neg k5] at h1 h2 h3 h4 h5 h6 h7
    simp only [not_or] at k2 k4
    have o0 := hout ["VmSize"] (by simp only [List.map_cons, List.map_nil, List.mem_cons, List.not_mem_nil, or_false]; exact k0)
    have o1 := hout ["VmRSS"] (by simp only [List.map_cons, List.map_nil, List.mem_cons, List.not_mem_nil, or_false]; exact k1)
    have o2 := hout ["RssFile", "RssShmem"] (by simp only [List.map_cons, List.map_nil, List.mem_cons, List.not_mem_nil, or_false, not_or]; exact k2)
    have o3 := hout ["VmExe"] (by simp only [List.map_cons, List.map_nil, List.mem_cons, List.not_mem_nil, or_false]; exact k3)
    have o4 := hout ["VmData", "VmStk"] (by simp only [List.map_cons, List.map_nil, List.mem_cons, List.not_mem_nil, or_false, not_or]; exact k4)
    have o5 := hout ["VmPTE"] (by simp only [List.map_cons, List.map_nil, List.mem_cons, List.not_mem_nil, or_false]; exact k5)
    exact ⟨by rw [o0]; exact h1, by rw [o1]; exact h2, by rw [o2]; exact h3, by rw [o3]; exact h4, by rw [o4]; exact h5, by rw [o5]; exact h6,
      by rw [o0, o1, o2, o3, o4, o5]; exact h7⟩

theorem From.all : ∀ (ls : List Line) (m0 : Mem), From m0 ls (ls.foldl step m0)
  | [], m0 => From.refl m0
  | l :: ls, m0 => (From.all ls (step m0 l)).cons

theorem fold_step {K : Nat} (hK : 0 < K) : ∀ {ls : List Line} {m : Mem}, (∀ l ∈ ls, l.OK K) →
    (ls.map Line.text).foldl (fun m l => m.line (l.drop (l.length / K * K))) m = ls.foldl step m
  | [], m, _ => rfl
  | l :: ls, m, h => by
    rw [List.map_cons, List.foldl_cons, List.foldl_cons, line_step hK (h l (.head _))]
    exact fold_step hK fun l' hl => h l' (.tail _ hl)

theorem no_newline {K : Nat} : ∀ {l : Line}, l.OK K → '\n' ∉ l.text
  | .other t, h => h.1
  | .entry key pad n kb, h => by
    obtain ⟨-, h2, h3, -⟩ := h
    unfold Line.text
    simp only [List.mem_append, not_or]
    refine ⟨⟨⟨⟨h2, by decide⟩, fun hp => ?_⟩, fun hd => absurd (isDigit_toDigits hd) (by decide)⟩, by cases kb <;> decide⟩
    rcases h3 _ hp with e | e <;> exact absurd e (by decide)

/-- The contents of the file: its lines, and perhaps the beginning of one more. -/
def file (ls : List Line) (tail : List Char) : List Char := (ls.flatMap fun l => l.text ++ ['\n']) ++ tail

/-- **C74.** However the reads cut the file into pieces: if all of it has been read, the figures are those of its lines, and success is reported exactly if
each figure is there. -/
theorem status_exact (ls : List Line) (tail : List Char) (ns : List Nat) (h : ∀ l ∈ ls, l.OK kBufferSize) (ht : '\n' ∉ tail)
    (hr : (fromStatus (file ls tail) ns).2.2 = []) :
    Right ls (fromStatus (file ls tail) ns).1 ∧ ((fromStatus (file ls tail) ns).2.1 = true ↔ Complete ls) := by
  obtain ⟨got, buf', e1, e2⟩ := reads_feed (K := kBufferSize) (ns := ns) (m := {}) (buf := []) (file := file ls tail) List.not_mem_nil (by decide)
  have hr' : (reads kBufferSize {} [] (file ls tail) ns).2 = [] := hr
  rw [hr', List.append_nil] at e1
  rw [← e1] at e2
  have hm : (reads kBufferSize {} [] (file ls tail) ns).1 = ls.foldl step {} := by
    have e3 : (file ls tail).foldl (feed kBufferSize) ({}, []) = tail.foldl (feed kBufferSize) (ls.foldl step {}, []) := by
      unfold file
      rw [List.foldl_append]
      have e4 : (ls.flatMap fun l => l.text ++ ['\n']) = (ls.map Line.text).flatMap fun l => l ++ ['\n'] := by
        rw [List.flatMap_map]
      rw [e4, feed_lines (by decide) (fun l hl => ?_), fold_step (by decide) h]
      obtain ⟨l', hl', rfl⟩ := List.mem_map.1 hl
      exact no_newline (h l' hl')
    have := congrArg Prod.fst (e2.symm.trans e3)
    rw [this.trans (feed_tail ht)]
  have hf := From.all ls {}
  have hs : (fromStatus (file ls tail) ns).1 = ls.foldl step {} := hm
  have hs2 : (fromStatus (file ls tail) ns).2.1 = ((ls.foldl step {}).seen == 0x3f) := by
    show ((reads kBufferSize {} [] (file ls tail) ns).1.seen == 0x3f) = _
    rw [hm]
  rw [hs, hs2]
  refine ⟨⟨hf.vss, hf.rss, by simpa using hf.shared, hf.code, by simpa using hf.data, hf.vmpte⟩, ?_⟩
  rw [hf.seen]
  unfold Complete
  simp only [List.mem_cons, List.not_mem_nil, or_false, forall_eq_or_imp, forall_eq, ne_eq]
  by_cases a : values ls ["VmSize"] = [] <;> by_cases b : values ls ["VmRSS"] = [] <;> by_cases c : values ls ["RssFile", "RssShmem"] = [] <;>
    by_cases d : values ls ["VmExe"] = [] <;> by_cases e : values ls ["VmData", "VmStk"] = [] <;> by_cases f : values ls ["VmPTE"] = [] <;>
    simp [a, b, c, d, e, f]

/-- **C74.** The buffer always has room: reads that give something, one for every character, read the whole file. -/
theorem status_reads_all {K : Nat} : ∀ {ns : List Nat} {m : Mem} {buf file : List Char}, '\n' ∉ buf → buf.length < K → (∀ n ∈ ns, 0 < n) →
    file.length ≤ ns.length → (reads K m buf file ns).2 = []
  | [], m, buf, file, _, _, _, hl => by
    have : file = [] := List.length_eq_zero_iff.1 (by simpa using hl)
    subst this; rfl
  | n :: ns, m, buf, file, hb, hk, hn, hl => by
    unfold reads
    dsimp only
    have hn0 := hn n (.head _)
    by_cases hf : file = []
    · subst hf; simp
    · have hpos : 0 < file.length := List.length_pos_iff.2 hf
      have hg : file.take (min n (K - buf.length)) ≠ [] := by
        intro h
        have := congrArg List.length h
        rw [List.length_take] at this
        simp only [List.length_nil] at this
        omega
      rw [if_neg hg]
      generalize hgot : file.take (min n (K - buf.length)) = got at hg ⊢
      have hlen : got.length ≤ K - buf.length := by rw [← hgot, List.length_take]; omega
      have hgl : 0 < got.length := List.length_pos_iff.2 hg
      obtain ⟨-, h2, h3⟩ := lines_feed (K := K) (fuel := (buf ++ got).length) (m := m) hb hk (got := got) (by omega) (Nat.le_refl _)
      generalize lines (buf ++ got).length m (buf ++ got) = r at h2 h3
      obtain ⟨m', rest⟩ := r
      dsimp only at h2 h3 ⊢
      refine status_reads_all (by split; exact List.not_mem_nil; exact h2) (by split; (simp; omega); omega) (fun n hn' => hn n (.tail _ hn')) ?_
      rw [List.length_drop]
      simp only [List.length_cons] at hl
      omega

/-! ### The hypotheses are met -/

/-- A process: eight figures, a name with a colon, a long list of groups, and the beginning of one more line. -/
def sampleLines : List Line :=
  [.other "Name:\ta:b kB".toList, .other ("Groups:\t".toList ++ List.replicate 1500 '7'), .entry "VmPeak".toList ['\t', ' '] 900 true,
   .entry "VmSize".toList ['\t', ' '] 800 true, .entry "VmRSS".toList ['\t'] 300 true, .entry "RssFile".toList ['\t'] 20 true,
   .entry "RssShmem".toList ['\t'] 1 true, .entry "VmData".toList ['\t'] 100 true, .entry "VmStk".toList ['\t'] 8 true,
   .entry "VmExe".toList ['\t'] 64 true, .entry "VmPTE".toList ['\t'] 12 true, .entry "Threads".toList ['\t'] 3 false]

instance (K : Nat) : (l : Line) → Decidable (l.OK K)
  | .entry _ _ _ _ => by unfold Line.OK; infer_instance
  | .other _ => by unfold Line.OK; infer_instance

theorem sample_lines_ok : ∀ l ∈ sampleLines, l.OK kBufferSize := by decide +kernel
theorem sample_read : (fromStatus (file sampleLines "VmRSS:\t7".toList) (List.replicate 300 7)).2.2 = [] := by decide +kernel

/-- Read in pieces of seven bytes. -/
example : Right sampleLines (fromStatus (file sampleLines "VmRSS:\t7".toList) (List.replicate 300 7)).1 ∧
    (fromStatus (file sampleLines "VmRSS:\t7".toList) (List.replicate 300 7)).2.1 = true :=
  have h := status_exact sampleLines "VmRSS:\t7".toList (List.replicate 300 7) sample_lines_ok (by decide) sample_read
  ⟨h.1, h.2.2 (by decide +kernel)⟩
example : (fromStatus (file sampleLines "VmRSS:\t7".toList) (List.replicate 300 7)).1 =
    ⟨800 * 1024, 300 * 1024, 21 * 1024, 64 * 1024, 108 * 1024, 12 * 1024, 63⟩ := by decide +kernel

/-- The limit on the lines is needed: the end of a line of more than 1024 characters is taken for a line of its own. -/
example : (fromStatus (file [.other (List.replicate 1024 'x' ++ "VmRSS:\t5 kB".toList)] []) [2000, 2000]).1.rss = 5 * 1024 := by decide +kernel

end Verif.SysFiles
