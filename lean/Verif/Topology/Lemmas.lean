import Verif.Topology.Spec
namespace Verif.Topology

/-! ### Numbers -/

theorem digit_facts {c : Char} (h : '0' ≤ c ∧ c ≤ '9') :
    c.isDigit = true ∧ isSpace c = false ∧ c ≠ '-' ∧ c ≠ ',' ∧ c ≠ '+' ∧ c ≠ '\n' := by
  obtain ⟨h1, h2⟩ := h
  have h1' : 48 ≤ c.toNat := h1
  have h2' : c.toNat ≤ 57 := h2
  have hne : ∀ d : Char, (d.toNat < 48 ∨ 57 < d.toNat) → c ≠ d := by
    intro d hd he
    subst he
    omega
  refine ⟨?_, ?_, hne _ (by decide), hne _ (by decide), hne _ (by decide), hne _ (by decide)⟩
  · unfold Char.isDigit
    have h3 : c.val ≥ 48 := h1
    have h4 : c.val ≤ 57 := h2
    simp [h3, h4]
  · have := hne ' ' (by decide)
    have := hne '\t' (by decide)
    have := hne '\n' (by decide)
    have := hne '\x0b' (by decide)
    have := hne '\x0c' (by decide)
    have := hne '\r' (by decide)
    simp [isSpace, *]

theorem dropWhile_head {s : Str} (h : ∀ c ∈ s, isSpace c = false) : s.dropWhile isSpace = s := by
  cases s with
  | nil => rfl
  | cons a s => simp [List.dropWhile, h a (by simp)]

theorem trim_digits {d : Str} (h : ∀ c ∈ d, isSpace c = false) (hd : d ≠ []) {nl : Str}
    (hn : nl = [] ∨ nl = ['\n']) : trim (d ++ nl) = d := by
  unfold trim
  have h1 : (d ++ nl).dropWhile isSpace = d ++ nl := by
    cases d with
    | nil => exact absurd rfl hd
    | cons a d => simp [List.dropWhile, h a (by simp)]
  rw [h1, List.reverse_append]
  have h2 : (nl.reverse ++ d.reverse).dropWhile isSpace = d.reverse := by
    have h3 : d.reverse.dropWhile isSpace = d.reverse :=
      dropWhile_head (fun c hc => h c (by simpa using hc))
    rcases hn with rfl | rfl
    · simpa using h3
    · have : isSpace '\n' = true := by decide
      simp [List.dropWhile, this, h3]
  rw [h2, List.reverse_reverse]

theorem digitsVal_eq (d : Str) :
    digitsVal d = d.foldl (fun v c => 10 * v + (c.toNat - '0'.toNat)) 0 := by
  unfold digitsVal
  congr 1
  funext v c
  have : '0'.toNat = 48 := by decide
  rw [this, Nat.mul_comm]

theorem signed_digits (d : Str) (h : ∀ c ∈ d, '0' ≤ c ∧ c ≤ '9') (hd : d ≠ []) :
    signed d = parseDigits false d := by
  cases d with
  | nil => exact absurd rfl hd
  | cons a d =>
    have hf := digit_facts (h a (by simp))
    simp [signed, hf.2.2.1, hf.2.2.2.2.1]

theorem atoi_writes {d : Str} {v : Nat} (h : Writes d v) (hv : v < 2048) {nl : Str}
    (hn : nl = [] ∨ nl = ['\n']) : inBounds (atoi (d ++ nl)) = some v := by
  obtain ⟨h1, -, h3, h4⟩ := h
  unfold atoi
  rw [trim_digits (fun c hc => (digit_facts (h3 c hc)).2.1) h1 hn]
  have hp : parseDigits false d = some (v : Int) := by
    unfold parseDigits
    have e1 : d.isEmpty = false := by
      cases d with
      | nil => exact absurd rfl h1
      | cons _ _ => rfl
    have e2 : d.all Char.isDigit = true :=
      List.all_eq_true.2 (fun c hc => (digit_facts (h3 c hc)).1)
    have e3 : digitsVal d = v := by rw [digitsVal_eq, h4]
    rw [e1, e2, e3]
    simp
    omega
  rw [signed_digits d h3 h1, hp]
  have : (kMaxCpus : Int) = 2048 := rfl
  simp only [inBounds, Option.bind_some, this]
  rw [if_pos (by omega)]
  simp

/-! ### Pieces: numbers with what follows them -/

inductive Sep where
  | dash | comma | stop
  deriving DecidableEq

def Sep.text (nl : Str) : Sep → Str
  | .dash => ['-']
  | .comma => [',']
  | .stop => nl

abbrev Piece := Str × Nat × Sep

def ptext (nl : Str) : List Piece → Str
  | [] => []
  | (d, _, s) :: ps => d ++ s.text nl ++ ptext nl ps

/-- What the pieces mean. -/
def absrun : List Piece → Option Nat → CpuSet → CpuSet
  | [], _, set => set
  | (_, v, .dash) :: ps, _, set => absrun ps (some v) set
  | (_, v, _) :: ps, some a, set => absrun ps none (addRange set a v)
  | (_, v, _) :: ps, none, set => absrun ps none (set.add v)

def WFp : List Piece → Prop
  | [] => True
  | (d, v, s) :: ps => Writes d v ∧ v < 2048 ∧ (s = .stop ↔ ps = []) ∧ WFp ps

theorem noSep {d : Str} (h : ∀ c ∈ d, '0' ≤ c ∧ c ≤ '9') {nl : Str}
    (hn : nl = [] ∨ nl = ['\n']) : ∀ c ∈ d ++ nl, c ≠ '-' ∧ c ≠ ',' := by
  intro c hc
  rcases List.mem_append.1 hc with hc | hc
  · exact ⟨(digit_facts (h c hc)).2.2.1, (digit_facts (h c hc)).2.2.2.1⟩
  · rcases hn with rfl | rfl
    · cases hc
    · simp only [List.mem_singleton] at hc
      subst hc
      decide

theorem find_none {s : Str} {x : Char} (h : ∀ c ∈ s, c ≠ x) : s.findIdx? (· == x) = none := by
  rw [List.findIdx?_eq_none_iff]
  intro c hc
  simpa using h c hc

theorem find_at {d x : Str} {y : Char} (h : ∀ c ∈ d, c ≠ y) :
    (d ++ y :: x).findIdx? (· == y) = some d.length := by
  rw [List.findIdx?_append, find_none h]
  simp [List.findIdx?_cons]

theorem find_after {d x : Str} {y z : Char} (h : ∀ c ∈ d, c ≠ y) (hz : z ≠ y) :
    (d ++ z :: x).findIdx? (· == y) = none ∨
      ∃ i, (d ++ z :: x).findIdx? (· == y) = some i ∧ d.length < i := by
  rw [List.findIdx?_append, find_none h]
  simp only [List.findIdx?_cons, beq_iff_eq, hz, if_false, Option.none_or]
  cases x.findIdx? (· == y) with
  | none => exact Or.inl rfl
  | some i => exact Or.inr ⟨_, rfl, by simp only; omega⟩

theorem branch_partial (st : PState) {cur : Str} {rc : Nat} (h : ∀ c ∈ cur, c ≠ '-' ∧ c ≠ ',')
    (hr : rc ≠ 0) : branch st cur rc = .go { st with carry := cur } := by
  unfold branch
  rw [find_none (fun c hc => (h c hc).1), find_none (fun c hc => (h c hc).2)]
  simp [hr, PState.next]

theorem branch_dash (st : PState) {d x : Str} {v rc : Nat} (h : Writes d v) (hv : v < 2048) :
    branch st (d ++ '-' :: x) rc = .go { st with from? := some v, carry := x } := by
  have hd := h.2.2.1
  have hdb : dashBranch st (d ++ '-' :: x) d.length =
      .go { st with from? := some v, carry := x } := by
    unfold dashBranch
    have := atoi_writes h hv (nl := []) (Or.inl rfl)
    rw [List.append_nil] at this
    rw [List.take_append_of_le_length (Nat.le_refl _), List.take_of_length_le (Nat.le_refl _), this]
    simp only [PState.next]
    rw [List.drop_append, List.drop_of_length_le (by omega), List.nil_append]
    have : d.length + 1 - d.length = 1 := by omega
    rw [this]
    rfl
  unfold branch
  rw [find_at (fun c hc => (digit_facts (hd c hc)).2.2.1)]
  rcases find_after (x := x) (y := ',') (z := '-')
    (fun c hc => (digit_facts (hd c hc)).2.2.2.1) (by decide) with h1 | ⟨i, h1, h2⟩
  · rw [h1]
    exact hdb
  · rw [h1]
    simp only [h2, if_true]
    exact hdb

/-- What the comma branch does to the pending start and the set. -/
def afterNum (st : PState) (v : Nat) : PState :=
  match st.from? with
  | some a => { st with set := addRange st.set a v, from? := none }
  | none => { st with set := st.set.add v }

theorem commaBranch_eq (st : PState) {cur : Str} {e k v : Nat}
    (h : inBounds (atoi (cur.take e)) = some v) :
    commaBranch st cur e k = .go { afterNum st v with carry := cur.drop k } := by
  unfold commaBranch afterNum
  rw [h]
  cases st.from? <;> rfl

theorem branch_comma (st : PState) {d x : Str} {v rc : Nat} (h : Writes d v) (hv : v < 2048) :
    branch st (d ++ ',' :: x) rc = .go { afterNum st v with carry := x } := by
  have hd := h.2.2.1
  have hcb : commaBranch st (d ++ ',' :: x) d.length (d.length + 1) =
      .go { afterNum st v with carry := x } := by
    have := atoi_writes h hv (nl := []) (Or.inl rfl)
    rw [List.append_nil] at this
    rw [commaBranch_eq (v := v)]
    · rw [List.drop_append, List.drop_of_length_le (by omega), List.nil_append]
      have : d.length + 1 - d.length = 1 := by omega
      rw [this]
      rfl
    · rw [List.take_append_of_le_length (Nat.le_refl _), List.take_of_length_le (Nat.le_refl _)]
      exact this
  unfold branch
  rw [find_at (y := ',') (fun c hc => (digit_facts (hd c hc)).2.2.2.1)]
  rcases find_after (x := x) (y := '-') (z := ',')
    (fun c hc => (digit_facts (hd c hc)).2.2.1) (by decide) with h1 | ⟨i, h1, h2⟩
  · rw [h1]
    exact hcb
  · rw [h1]
    simp only
    rw [if_neg (by omega)]
    exact hcb

theorem branch_stop (st : PState) {d nl : Str} {v : Nat} (h : Writes d v) (hv : v < 2048)
    (hn : nl = [] ∨ nl = ['\n']) :
    branch st (d ++ nl) 0 = .go { afterNum st v with carry := [] } := by
  unfold branch
  rw [find_none (fun c hc => (noSep h.2.2.1 hn c hc).1),
    find_none (fun c hc => (noSep h.2.2.1 hn c hc).2)]
  simp only [if_true]
  rw [commaBranch_eq (v := v), List.drop_of_length_le (Nat.le_refl _)]
  rw [List.take_of_length_le (Nat.le_refl _)]
  exact atoi_writes h hv hn

/-! ### The loop -/

theorem prefix_of {cur rest d y : Str} (h : cur ++ rest = d ++ y) (hl : cur.length ≤ d.length) :
    ∃ t, d = cur ++ t := by
  rcases List.append_eq_append_iff.1 h with ⟨t, h1, -⟩ | ⟨t, h1, h2⟩
  · exact ⟨t, h1⟩
  · rw [h1, List.length_append] at hl
    have : t = [] := List.eq_nil_of_length_eq_zero (by omega)
    subst this
    exact ⟨[], by simpa using h1.symm⟩

theorem split_of {cur rest d y : Str} {c : Char} (h : cur ++ rest = d ++ c :: y)
    (hl : d.length < cur.length) : ∃ x, cur = d ++ c :: x ∧ x ++ rest = y := by
  rcases List.append_eq_append_iff.1 h with ⟨t, h1, -⟩ | ⟨t, h1, h2⟩
  · rw [h1, List.length_append] at hl
    omega
  · cases t with
    | nil =>
      rw [h1, List.append_nil] at hl
      omega
    | cons a t =>
      simp only [List.cons_append, List.cons.injEq] at h2
      exact ⟨t, by rw [h1, h2.1], h2.2.symm⟩

/-- One iteration, after the read. -/
theorem iter_eq {f : File} {st : PState} (hok : ∀ n, f.sched n ≠ none) (hc : st.carry.length ≤ 15) :
    ∃ chunk rest, st.data = chunk ++ rest ∧ (chunk = [] ↔ st.data = []) ∧
      (st.carry ++ chunk).length ≤ 16 ∧
      iter f st =
        if (st.carry ++ chunk).isEmpty && chunk.length == 0 then .done st.set
        else if (st.carry ++ chunk) == ['\n'] && chunk.length == 0 then .done st.set
        else branch { st with data := rest, n := st.n + 1 } (st.carry ++ chunk) chunk.length := by
  cases hs : f.sched st.n with
  | none => exact absurd hs (hok _)
  | some k =>
    have hk : 1 ≤ min (kBuf - st.carry.length) (max 1 k) := by
      have : kBuf = 16 := rfl
      omega
    have hk2 : min (kBuf - st.carry.length) (max 1 k) ≤ 16 - st.carry.length := by
      have : kBuf = 16 := rfl
      omega
    generalize hm : min (kBuf - st.carry.length) (max 1 k) = m at hk hk2
    refine ⟨st.data.take m, st.data.drop m, (List.take_append_drop m _).symm, ?_, ?_, ?_⟩
    · constructor
      · intro h
        rcases List.take_eq_nil_iff.1 h with h | h
        · omega
        · exact h
      · intro h
        simp [h]
    · simp
      omega
    · unfold iter File.read
      rw [hs, Option.map_some, hm]
      simp only
      have hd : st.data.drop (st.data.take m).length = st.data.drop m := by
        rw [List.length_take]
        by_cases h : m ≤ st.data.length
        · rw [Nat.min_eq_left h]
        · rw [Nat.min_eq_right (by omega), List.drop_of_length_le (Nat.le_refl _),
            List.drop_of_length_le (by omega)]
      rw [hd]

theorem afterNum_run (st : PState) (d : Str) (v : Nat) (s : Sep) (hs : s ≠ .dash)
    (ps : List Piece) :
    absrun ((d, v, s) :: ps) st.from? st.set =
      absrun ps (afterNum st v).from? (afterNum st v).set := by
  cases s with
  | dash => exact absurd rfl hs
  | comma =>
    unfold afterNum
    cases h : st.from? with
    | none => simp only [absrun, h]
    | some a => simp only [absrun]
  | stop =>
    unfold afterNum
    cases h : st.from? with
    | none => simp only [absrun, h]
    | some a => simp only [absrun]

theorem afterNum_data (st : PState) (v : Nat) :
    (afterNum st v).data = st.data ∧ (afterNum st v).n = st.n := by
  unfold afterNum
  cases st.from? <;> exact ⟨rfl, rfl⟩

theorem loop_pieces {f : File} (hok : ∀ n, f.sched n ≠ none) {nl : Str}
    (hn : nl = [] ∨ nl = ['\n']) : ∀ (fuel : Nat) (st : PState) (ps : List Piece),
    2 * st.data.length + st.carry.length < fuel → st.carry.length ≤ 15 → WFp ps →
    st.carry ++ st.data = ptext nl ps →
    loop f fuel st = some (some (absrun ps st.from? st.set))
  | 0, _, _, h, _, _, _ => by omega
  | fuel + 1, st, ps, hf, hc, hw, ht => by
    obtain ⟨chunk, rest, e1, e2, e3, e4⟩ := iter_eq (f := f) (st := st) hok hc
    have hlen : st.data.length = chunk.length + rest.length := by rw [e1, List.length_append]
    have hcl : (st.carry ++ chunk).length = st.carry.length + chunk.length := List.length_append
    have hcur : (st.carry ++ chunk) ++ rest = ptext nl ps := by
      rw [List.append_assoc, ← e1]
      exact ht
    unfold loop
    rw [e4]
    cases ps with
    | nil =>
      unfold ptext at hcur
      have h1 : st.carry ++ chunk = [] := (List.append_eq_nil_iff.1 hcur).1
      have h2 : chunk = [] := (List.append_eq_nil_iff.1 h1).2
      rw [h1, h2]
      rfl
    | cons p ps =>
      obtain ⟨d, v, s⟩ := p
      obtain ⟨hw1, hw2, hw3, hw4⟩ := hw
      have hdd := hw1.2.2.1
      have hd0 : 0 < d.length := by
        rcases Nat.eq_zero_or_pos d.length with h | h
        · exact absurd (List.eq_nil_of_length_eq_zero h) hw1.1
        · exact h
      have hcur : (st.carry ++ chunk) ++ rest = d ++ (s.text nl ++ ptext nl ps) := by
        rw [hcur]
        simp only [ptext, List.append_assoc]
      -- the buffer never holds just a newline here
      have hnotnl : (st.carry ++ chunk) ≠ ['\n'] := by
        intro h
        rw [h] at hcur
        cases d with
        | nil => simp at hd0
        | cons a d =>
          simp only [List.cons_append, List.cons.injEq] at hcur
          exact (digit_facts (hdd a (by simp))).2.2.2.2.2 hcur.1.symm
      have hg2 : ((st.carry ++ chunk) == ['\n'] && chunk.length == 0) = false := by
        rw [beq_eq_false_iff_ne.2 hnotnl]
        rfl
      -- at the end of the file all of the text is in the buffer
      have hend : chunk.length = 0 → rest = [] := by
        intro h
        have := e2.1 (List.eq_nil_of_length_eq_zero h)
        rw [this] at hlen
        exact List.eq_nil_of_length_eq_zero (by simp at hlen; omega)
      have hg1 : ((st.carry ++ chunk).isEmpty && chunk.length == 0) = false := by
        by_cases h : chunk.length = 0
        · have hr := hend h
          rw [hr, List.append_nil] at hcur
          rw [hcur]
          cases d with
          | nil => simp at hd0
          | cons a d => rfl
        · have : (chunk.length == 0) = false := beq_eq_false_iff_ne.2 h
          rw [this, Bool.and_false]
      rw [hg1, hg2]
      simp only [Bool.false_eq_true, if_false]
      -- a number not yet followed by anything
      have hpart : (∀ c ∈ st.carry ++ chunk, c ≠ '-' ∧ c ≠ ',') → chunk.length ≠ 0 →
          (st.carry ++ chunk).length ≤ 15 →
          (match branch { st with data := rest, n := st.n + 1 } (st.carry ++ chunk) chunk.length with
            | .fail => some none
            | .done s => some (some s)
            | .go st' => loop f fuel st') =
            some (some (absrun ((d, v, s) :: ps) st.from? st.set)) := by
        intro g1 g2 g3
        rw [branch_partial _ g1 g2]
        exact loop_pieces hok hn fuel _ ((d, v, s) :: ps) (by simp only; omega) g3
          ⟨hw1, hw2, hw3, hw4⟩ (by
            simp only [ptext]
            rw [List.append_assoc (as := d)]
            exact hcur)
      by_cases hsep : s = .stop
      · have hps : ps = [] := hw3.1 hsep
        subst hsep hps
        simp only [Sep.text, ptext, List.append_nil] at hcur
        have hnl : nl.length ≤ 1 := by rcases hn with rfl | rfl <;> simp
        by_cases hz : chunk.length = 0
        · have hr := hend hz
          rw [hr, List.append_nil] at hcur
          rw [hcur, hz, branch_stop _ hw1 hw2 hn, afterNum_run _ _ _ _ (by decide)]
          have hx : st.carry.length = d.length + nl.length := by
            have := congrArg List.length hcur
            rw [List.length_append, List.length_append] at this
            omega
          have hdt : st.data = [] := by rw [e1, hr, List.eq_nil_of_length_eq_zero hz]; rfl
          have := loop_pieces hok hn fuel
            { afterNum { st with data := rest, n := st.n + 1 } v with carry := [] } []
            (by simp only [(afterNum_data _ v).1, hr, List.length_nil]; omega)
            (by simp) trivial
            (by simp only [(afterNum_data _ v).1, hr]; rfl)
          simp only at this ⊢
          rw [this]
          simp only [absrun]
          unfold afterNum
          cases st.from? <;> rfl
        · refine hpart ?_ hz ?_
          · intro c hmem
            exact noSep hdd hn c (by rw [← hcur]; exact List.mem_append_left _ hmem)
          · have h1 := congrArg List.length hcur
            rw [List.length_append (as := st.carry ++ chunk), List.length_append (as := d)] at h1
            have := hw1.2.1
            omega
      · have hsep' : ∃ ch : Char, s.text nl = [ch] ∧ ((s = .dash ∧ ch = '-') ∨ (s = .comma ∧ ch = ',')) := by
          cases s with
          | dash => exact ⟨'-', rfl, Or.inl ⟨rfl, rfl⟩⟩
          | comma => exact ⟨',', rfl, Or.inr ⟨rfl, rfl⟩⟩
          | stop => exact absurd rfl hsep
        obtain ⟨ch, hst, hor⟩ := hsep'
        rw [hst, List.singleton_append] at hcur
        by_cases hle : (st.carry ++ chunk).length ≤ d.length
        · obtain ⟨t, ht'⟩ := prefix_of hcur hle
          refine hpart ?_ ?_ ?_
          · intro c hmem
            have hm : c ∈ d := by rw [ht']; exact List.mem_append_left _ hmem
            exact ⟨(digit_facts (hdd c hm)).2.2.1, (digit_facts (hdd c hm)).2.2.2.1⟩
          · intro hz
            have hr := hend hz
            rw [hr, List.append_nil] at hcur
            rw [hcur, List.length_append, List.length_cons] at hle
            omega
          · have := hw1.2.1
            omega
        · obtain ⟨x, hx1, hx2⟩ := split_of hcur (by omega)
          have hxl : x.length + d.length + 1 = (st.carry ++ chunk).length := by
            rw [hx1]
            simp
            omega
          rw [hx1]
          rcases hor with ⟨hs1, hs2⟩ | ⟨hs1, hs2⟩
          · subst hs1 hs2
            rw [branch_dash _ hw1 hw2]
            have := loop_pieces hok hn fuel
              { st with data := rest, n := st.n + 1, from? := some v, carry := x } ps
              (by simp only; omega) (by simp only; omega) hw4 hx2
            simp only [absrun]
            exact this
          · subst hs1 hs2
            rw [branch_comma _ hw1 hw2, afterNum_run _ _ _ _ (by decide)]
            have := loop_pieces hok hn fuel
              { afterNum { st with data := rest, n := st.n + 1 } v with carry := x } ps
              (by simp only [(afterNum_data _ v).1]; omega) (by simp only; omega) hw4
              (by simp only [(afterNum_data _ v).1]; exact hx2)
            simp only at this ⊢
            rw [this]
            unfold afterNum
            cases st.from? <;> rfl

end Verif.Topology
