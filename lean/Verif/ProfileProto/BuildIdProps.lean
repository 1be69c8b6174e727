import Verif.ProfileProto.BuildId
/-
C71: reading the build id of a loaded file is safe whatever the file holds, and right for well-formed
notes.
-/
namespace Verif.ProfileProto.BuildId

/-! ### Specification: how notes are laid out, elf(5) -/

/-- A note with its padding. -/
structure Entry where
  type : Nat
  name : List UInt8
  pad : List UInt8
  desc : List UInt8
  pad' : List UInt8

/-- Little-endian 32 bits. -/
def le (n : Nat) : List UInt8 :=
  [UInt8.ofNat (n % 256), UInt8.ofNat (n / 256 % 256), UInt8.ofNat (n / 65536 % 256),
   UInt8.ofNat (n / 16777216 % 256)]

def Entry.encode (e : Entry) : List UInt8 :=
  le e.name.length ++ le e.desc.length ++ le e.type ++ e.name ++ e.pad ++ e.desc ++ e.pad'

/-- Header and name, and the descriptor, are each padded to a multiple of the alignment. -/
structure Entry.Padded (align : Nat) (e : Entry) : Prop where
  type : e.type < 2 ^ 32
  pad : e.pad.length < align
  pad' : e.pad'.length < align
  name : align ∣ 12 + e.name.length + e.pad.length
  desc : align ∣ e.desc.length + e.pad'.length
  small : 12 + e.name.length + e.pad.length + e.desc.length + e.pad'.length + align < 2 ^ 32

/-- A build id: a note of type 3 that GNU issued. -/
def Entry.isId (e : Entry) : Bool := e.type == 3 && e.name == [0x47, 0x4e, 0x55, 0]

/-- The build ids of a file. -/
def ids (l : List (Nat × List Entry)) : List (List UInt8) :=
  l.flatMap fun n => (n.2.filter Entry.isId).map Entry.desc

/-- The answer for these build ids: empty ones do not count until one is found; if there is another
one after that, none. -/
def answer (l : List (List UInt8)) : List Char :=
  match l.dropWhile List.isEmpty with
  | [d] => hex d
  | _ => []

/-- The segments that hold these notes. -/
def notes (l : List (Nat × List Entry)) : List Note :=
  l.map fun n => ⟨n.2.flatMap Entry.encode, n.1⟩

/-! ### Arithmetic -/

theorem and_compl (y m : Nat) (hm : m < 2 ^ 32) (hy : y < 2 ^ 32) :
    y &&& (2 ^ 32 - 1 - m) = y - (y &&& m) := by
  have hb : ∀ (a b c : BitVec 32), c = ~~~b → (a &&& c) + (a &&& b) = a := by
    intro a b c hc
    subst hc
    rw [BitVec.add_eq_or_of_and_eq_zero]
    · ext i
      simp
      cases a[i] <;> cases b[i] <;> rfl
    · ext i
      simp
      cases a[i] <;> cases b[i] <;> simp
  have h1 := hb (BitVec.ofNat 32 y) (BitVec.ofNat 32 m) (BitVec.ofNat 32 (2 ^ 32 - 1 - m)) (by
    apply BitVec.eq_of_toNat_eq
    simp
    omega)
  have h2 := congrArg BitVec.toNat h1
  simp only [BitVec.toNat_add, BitVec.toNat_and, BitVec.toNat_ofNat] at h2
  rw [Nat.mod_eq_of_lt hy, Nat.mod_eq_of_lt hm,
    Nat.mod_eq_of_lt (show 2 ^ 32 - 1 - m < 2 ^ 32 by omega)] at h2
  have h3 : y &&& (2 ^ 32 - 1 - m) ≤ y := Nat.and_le_left
  have h4 : y &&& m ≤ y := Nat.and_le_left
  omega

theorem alignUp_eq {x a : Nat} (ha : 0 < a) (hx : x + a ≤ 2 ^ 32) :
    alignUp x a = (x + a - 1) - ((x + a - 1) &&& (a - 1)) := by
  unfold alignUp
  rw [show (x + a + (2 ^ 32 - 1)) % 2 ^ 32 = x + a - 1 by omega,
    show (2 ^ 32 - a) % 2 ^ 32 = 2 ^ 32 - 1 - (a - 1) by omega]
  exact and_compl _ _ (by omega) (by omega)

theorem alignUp_ge {x a : Nat} (ha : 0 < a) (hx : x + a ≤ 2 ^ 32) : x ≤ alignUp x a := by
  rw [alignUp_eq ha hx]
  have : (x + a - 1) &&& (a - 1) ≤ a - 1 := Nat.and_le_right
  omega

/-- Rounding up past `2^32` gives less than a header. -/
theorem alignUp_wrap {x a : Nat} (h1 : 2 ^ 32 < x + a) (h2 : x + a < 2 ^ 32 + 12) :
    alignUp x a < 11 := by
  unfold alignUp
  have : ((x + a + (2 ^ 32 - 1)) % 2 ^ 32) &&& ((2 ^ 32 - a) % 2 ^ 32) ≤
      (x + a + (2 ^ 32 - 1)) % 2 ^ 32 := Nat.and_le_left
  omega

theorem alignUp_exact {x p k : Nat} (hp : p < 2 ^ k) (hd : 2 ^ k ∣ x + p)
    (hx : x + 2 ^ k ≤ 2 ^ 32) : alignUp x (2 ^ k) = x + p := by
  have hk : 0 < 2 ^ k := Nat.two_pow_pos k
  rw [alignUp_eq hk hx, Nat.and_two_pow_sub_one_eq_mod]
  obtain ⟨q, hq⟩ := hd
  have h1 : x + 2 ^ k - 1 = (2 ^ k - 1 - p) + 2 ^ k * q := by omega
  rw [h1, Nat.add_mul_mod_self_left, Nat.mod_eq_of_lt (by omega)]
  omega

attribute [local irreducible] alignUp

/-! ### Safety -/

theorem word_some {s : List UInt8} {o : Nat} (h : o + 4 ≤ s.length) :
    ∃ n, word s o = some n ∧ n < 2 ^ 32 := by
  unfold word
  rw [List.getElem?_eq_getElem (show o < s.length by omega),
    List.getElem?_eq_getElem (show o + 1 < s.length by omega),
    List.getElem?_eq_getElem (show o + 2 < s.length by omega),
    List.getElem?_eq_getElem (show o + 3 < s.length by omega)]
  refine ⟨_, rfl, ?_⟩
  have h0 := s[o].toNat_lt
  have h1 := s[o + 1].toNat_lt
  have h2 := s[o + 2].toNat_lt
  have h3 := s[o + 3].toNat_lt
  omega

theorem no_wrap {x y d n l : Nat} (h1 : n ≤ x) (h2 : d ≤ y) (_hx : x < 2 ^ 32) (hy : y < 2 ^ 32)
    (h3 : ¬ (x + y) % 2 ^ 32 < x) (h4 : ¬ l < (x + y) % 2 ^ 32) :
    n ≤ x ∧ x + d ≤ (x + y) % 2 ^ 32 ∧ (x + y) % 2 ^ 32 ≤ l := by omega

/-- What the check leaves. -/
theorem sound {last note align namesz descsz : Nat} (ha : align < 2 ^ 32)
    (h : corrupt last note align namesz descsz (descStartOf namesz align)
      (sizeOf (descStartOf namesz align) descsz align) = false) :
    12 + namesz ≤ descStartOf namesz align ∧
    descStartOf namesz align + descsz ≤ sizeOf (descStartOf namesz align) descsz align ∧
    sizeOf (descStartOf namesz align) descsz align ≤ last - note := by
  unfold sizeOf descStartOf at *
  simp only [corrupt, Bool.or_eq_false_iff] at h
  obtain ⟨⟨⟨⟨h1, h2⟩, h3⟩, h4⟩, h5⟩ := h
  have h1 := of_decide_eq_false h1
  have h2 := of_decide_eq_false h2
  have h3 := of_decide_eq_false h3
  have h4 := of_decide_eq_false h4
  have h5 := of_decide_eq_false h5
  rw [show kHeader + namesz = 12 + namesz from rfl] at *
  rw [show kHeader = 12 from rfl] at h3
  have hpos : 0 < align := by
    rcases Nat.eq_zero_or_pos align with h0 | h0
    · subst h0
      omega
    · exact h0
  have hn : namesz + align < 2 ^ 32 := by omega
  have hd : descsz + align < 2 ^ 32 := by omega
  have g2 := alignUp_ge hpos (show descsz + align ≤ 2 ^ 32 by omega)
  have g1 : 12 + namesz + align ≤ 2 ^ 32 := by
    rcases Nat.lt_or_ge (2 ^ 32) (12 + namesz + align) with h0 | h0
    · have := alignUp_wrap h0 (by omega)
      omega
    · exact h0
  have g3 := alignUp_ge hpos g1
  have g4 : alignUp (12 + namesz) align < 2 ^ 32 := by
    rw [alignUp_eq hpos g1]; omega
  have g5 : alignUp descsz align < 2 ^ 32 := by
    rw [alignUp_eq hpos (by omega)]; omega
  exact no_wrap g3 g2 g4 g5 h4 h5

theorem encode_length (e : Entry) : e.encode.length =
    12 + e.name.length + e.pad.length + e.desc.length + e.pad'.length := by
  simp only [Entry.encode, List.length_append, le, List.length_cons, List.length_nil]

theorem sizes {k : Nat} {e : Entry} (he : e.Padded (2 ^ k)) :
    descStartOf e.name.length (2 ^ k) = 12 + e.name.length + e.pad.length ∧
    sizeOf (12 + e.name.length + e.pad.length) e.desc.length (2 ^ k) = e.encode.length := by
  have hsmall := he.small
  have hk0 : 0 < 2 ^ k := Nat.two_pow_pos k
  have h1 : alignUp (12 + e.name.length) (2 ^ k) =
      12 + e.name.length + e.pad.length := alignUp_exact he.pad he.name (by omega)
  have h2 : alignUp e.desc.length (2 ^ k) = e.desc.length + e.pad'.length :=
    alignUp_exact he.pad' he.desc (by omega)
  refine ⟨h1, ?_⟩
  unfold sizeOf
  rw [h2, encode_length, Nat.mod_eq_of_lt (by omega)]
  omega

theorem not_corrupt {k last note : Nat} {e : Entry} (hk : k < 32) (he : e.Padded (2 ^ k))
    (h : note + e.encode.length ≤ last) :
    corrupt last note (2 ^ k) e.name.length e.desc.length (12 + e.name.length + e.pad.length)
      e.encode.length = false := by
  have hlt : 2 ^ k < 2 ^ 32 := Nat.pow_lt_pow_right (by omega) hk
  have hsmall := he.small
  have hk0 : 0 < 2 ^ k := Nat.two_pow_pos k
  have hlen := encode_length e
  unfold corrupt
  rw [Bool.or_eq_false_iff, Bool.or_eq_false_iff, Bool.or_eq_false_iff, Bool.or_eq_false_iff]
  generalize 2 ^ k = a at *
  refine ⟨⟨⟨⟨?_, ?_⟩, ?_⟩, ?_⟩, ?_⟩ <;> apply decide_eq_false
  · omega
  · omega
  · rw [show kHeader = 12 from rfl]; omega
  · omega
  · omega

attribute [local irreducible] descStartOf sizeOf corrupt

theorem turn_safe {s : List UInt8} {align : Nat} (ha : align < 2 ^ 32) (note : Nat)
    (r : List Char) : turn s align note r ≠ .done .fail ∧
    ∀ n r', turn s align note r = .again n r' → note < n ∧ n ≤ s.length := by
  unfold turn
  by_cases c1 : s.length ≤ note
  · rw [if_pos c1]; exact ⟨nofun, nofun⟩
  rw [if_neg c1]
  by_cases c2 : s.length < note + kHeader
  · rw [if_pos c2]; exact ⟨nofun, nofun⟩
  rw [if_neg c2]
  have c2 : ¬ s.length < note + 12 := c2
  obtain ⟨namesz, hn, _⟩ := word_some (s := s) (o := note) (by omega)
  obtain ⟨descsz, hd, _⟩ := word_some (s := s) (o := note + 4) (by omega)
  obtain ⟨type, ht, _⟩ := word_some (s := s) (o := note + 8) (by omega)
  rw [hn, hd]
  dsimp only
  have hsound := sound (last := s.length) (note := note) (namesz := namesz) (descsz := descsz) ha
  generalize descStartOf namesz align = x at *
  generalize sizeOf x descsz align = y at *
  generalize corrupt s.length note align namesz descsz x y = c at *
  cases c with
  | true => rw [if_pos rfl]; exact ⟨nofun, nofun⟩
  | false =>
    rw [if_neg (by simp)]
    obtain ⟨g1, g2, g3⟩ := hsound rfl
    have hagain : ∀ q, (Turn.again (note + y) q ≠ .done .fail) ∧
        ∀ n r', Turn.again (note + y) q = .again n r' → note < n ∧ n ≤ s.length := by
      intro q
      refine ⟨nofun, ?_⟩
      intro n r' h
      cases h
      omega
    unfold take
    rw [ht]
    dsimp only
    by_cases c3 : type = kBuildId ∧ namesz = 4
    · rw [if_pos c3]
      have hsl : slice s (note + kHeader) 4 = some ((s.drop (note + kHeader)).take 4) := by
        unfold slice
        rw [if_pos (by rw [show kHeader = 12 from rfl]; omega)]
      have hsd : slice s (note + x) descsz = some ((s.drop (note + x)).take descsz) := by
        unfold slice
        rw [if_pos (by omega)]
      rw [hsl, hsd]
      dsimp only
      split
      · split
        · exact ⟨nofun, nofun⟩
        · exact hagain _
      · exact hagain _
    · rw [if_neg c3]
      exact hagain _

theorem loop_safe {s : List UInt8} {align : Nat} (ha : align < 2 ^ 32) :
    ∀ (fuel note : Nat) (r : List Char), note < s.length + 1 → s.length + 1 ≤ fuel + note →
    loop s align fuel note r ≠ .fail
  | 0, note, r, h1, h2 => by omega
  | fuel + 1, note, r, h1, h2 => by
    obtain ⟨t1, t2⟩ := turn_safe (s := s) ha note r
    unfold loop
    cases ht : turn s align note r with
    | done x =>
      intro h
      dsimp only at h
      subst h
      exact t1 ht
    | again n r' =>
      have := t2 n r' ht
      exact loop_safe ha fuel n r' (by omega) (by omega)

/-- C71.  Whatever the note segments hold and whatever alignment they claim, reading the build id
ends, and nothing outside the segments is read. -/
theorem build_id_safe : ∀ l : List Note, ∃ r, getBuildId l = .ok r := by
  have key : ∀ (l : List Note) r, ∃ r', segments l r = .ok r' := by
    intro l
    induction l with
    | nil => intro r; exact ⟨_, rfl⟩
    | cons n l ih =>
      intro r
      unfold segments
      have := loop_safe (s := n.bytes) (align := n.align % 2 ^ 32) (Nat.mod_lt _ (by omega))
        (n.bytes.length + 1) 0 r (by omega) (by omega)
      revert this
      generalize loop n.bytes (n.align % 2 ^ 32) (n.bytes.length + 1) 0 r = x
      intro hx
      cases x with
      | fail => exact absurd rfl hx
      | stop => exact ⟨_, rfl⟩
      | next r' => exact ih r'
  exact fun l => key l []

/-! ### Well-formed notes -/

theorem word_le {pre post : List UInt8} {n o : Nat} (hn : n < 2 ^ 32) (ho : o = pre.length) :
    word (pre ++ (le n ++ post)) o = some n := by
  subst ho
  have e : ∀ i, (pre ++ (le n ++ post))[pre.length + i]? = (le n ++ post)[i]? := by
    intro i
    rw [List.getElem?_append_right (by omega)]
    congr 1
    omega
  have e0 := e 0
  simp only [Nat.add_zero] at e0
  unfold word
  rw [e0, e 1, e 2, e 3]
  simp only [le, List.cons_append, List.getElem?_cons_zero, List.getElem?_cons_succ,
    UInt8.toNat_ofNat']
  congr 1
  omega

theorem slice_mid {pre x post : List UInt8} {o n : Nat} (ho : o = pre.length) (hn : n = x.length) :
    slice (pre ++ (x ++ post)) o n = some x := by
  subst ho hn
  unfold slice
  rw [if_pos (by simp), List.drop_left, List.take_left]

/-- Going through build ids one by one; `none` once there is another one after one was found. -/
def after (r : List Char) : List (List UInt8) → Option (List Char)
  | [] => some r
  | d :: l => if r ≠ [] then none else after (hex d) l

def segOf : Option (List Char) → Seg
  | none => .stop
  | some r => .next r

theorem loop_encoded {k : Nat} (hk : k < 32) : ∀ (l : List Entry) (pre : List UInt8) (fuel : Nat)
    (r : List Char), (∀ e ∈ l, e.Padded (2 ^ k)) → l.length < fuel →
    loop (pre ++ l.flatMap Entry.encode) (2 ^ k) fuel pre.length r =
      segOf (after r ((l.filter Entry.isId).map Entry.desc))
  | [], pre, fuel, r, _, hf => by
    cases fuel with
    | zero => simp at hf
    | succ fuel =>
      have : turn (pre ++ List.flatMap Entry.encode []) (2 ^ k) pre.length r =
          .done (.next r) := by
        unfold turn
        rw [if_pos (by simp)]
      unfold loop
      rw [this]
      rfl
  | e :: l, pre, fuel, r, hp, hf => by
    cases fuel with
    | zero => simp at hf
    | succ fuel =>
      have he := hp e List.mem_cons_self
      have hlen := encode_length e
      have hk0 : 0 < 2 ^ k := Nat.two_pow_pos k
      have hsmall := he.small
      have ih := fun r => loop_encoded hk l (pre ++ e.encode) fuel r
        (fun x hx => hp x (List.mem_cons_of_mem _ hx))
        (by simp only [List.length_cons] at hf; omega)
      have hs : pre ++ e.encode ++ l.flatMap Entry.encode =
          pre ++ (e :: l).flatMap Entry.encode := by simp
      obtain ⟨h1, hsize⟩ := sizes he
      have hc := not_corrupt (last := pre.length + e.encode.length +
        (l.flatMap Entry.encode).length) (note := pre.length) hk he (by omega)
      have w0 : word (pre ++ (e :: l).flatMap Entry.encode) pre.length = some e.name.length := by
        have : pre ++ (e :: l).flatMap Entry.encode = pre ++ (le e.name.length ++
            (le e.desc.length ++ le e.type ++ e.name ++ e.pad ++ e.desc ++ e.pad' ++
              l.flatMap Entry.encode)) := by simp [Entry.encode]
        rw [this]
        exact word_le (by omega) rfl
      have w1 : word (pre ++ (e :: l).flatMap Entry.encode) (pre.length + 4) =
          some e.desc.length := by
        have : pre ++ (e :: l).flatMap Entry.encode = (pre ++ le e.name.length) ++
            (le e.desc.length ++ (le e.type ++ e.name ++ e.pad ++ e.desc ++ e.pad' ++
              l.flatMap Entry.encode)) := by simp [Entry.encode]
        rw [this]
        exact word_le (by omega) (by simp [le])
      have w2 : word (pre ++ (e :: l).flatMap Entry.encode) (pre.length + 8) =
          some e.type := by
        have : pre ++ (e :: l).flatMap Entry.encode = (pre ++ le e.name.length ++
            le e.desc.length) ++ (le e.type ++ (e.name ++ e.pad ++ e.desc ++ e.pad' ++
              l.flatMap Entry.encode)) := by simp [Entry.encode]
        rw [this]
        exact word_le he.type (by simp [le])
      have w3 : slice (pre ++ (e :: l).flatMap Entry.encode) (pre.length + 12) e.name.length =
          some e.name := by
        have : pre ++ (e :: l).flatMap Entry.encode = (pre ++ le e.name.length ++
            le e.desc.length ++ le e.type) ++ (e.name ++ (e.pad ++ e.desc ++ e.pad' ++
              l.flatMap Entry.encode)) := by simp [Entry.encode]
        rw [this]
        exact slice_mid (by simp [le]) rfl
      have w4 : slice (pre ++ (e :: l).flatMap Entry.encode)
          (pre.length + (12 + e.name.length + e.pad.length)) e.desc.length = some e.desc := by
        have : pre ++ (e :: l).flatMap Entry.encode = (pre ++ le e.name.length ++
            le e.desc.length ++ le e.type ++ e.name ++ e.pad) ++ (e.desc ++ (e.pad' ++
              l.flatMap Entry.encode)) := by simp [Entry.encode]
        rw [this]
        exact slice_mid (by simp [le]; omega) rfl
      have hslen : (pre ++ (e :: l).flatMap Entry.encode).length =
          pre.length + e.encode.length + (l.flatMap Entry.encode).length := by simp; omega
      rw [hs] at ih
      simp only [List.length_append (as := pre) (bs := e.encode)] at ih
      have hturn : turn (pre ++ (e :: l).flatMap Entry.encode) (2 ^ k) pre.length r =
          take (pre ++ (e :: l).flatMap Entry.encode) pre.length e.name.length e.desc.length
            (12 + e.name.length + e.pad.length) e.encode.length r := by
        unfold turn
        rw [if_neg (by omega), if_neg (by rw [show kHeader = 12 from rfl]; omega), w0, w1]
        dsimp only
        rw [h1, hsize, hslen, hc, if_neg (by simp)]
      unfold loop
      rw [hturn]
      unfold take
      rw [w2]
      dsimp only
      by_cases c3 : e.type = kBuildId ∧ e.name.length = 4
      · rw [if_pos c3]
        rw [c3.2] at w3
        rw [show pre.length + kHeader = pre.length + 12 from rfl, w3]
        dsimp only
        by_cases c4 : isGnu e.name = true
        · rw [if_pos c4]
          have hid : e.isId = true := by
            unfold Entry.isId
            rw [c3.1]
            exact c4
          rw [List.filter_cons_of_pos hid, List.map_cons]
          unfold after
          by_cases c5 : r ≠ []
          · rw [if_pos c5, if_pos c5]; rfl
          · rw [if_neg c5, if_neg c5, w4]
            exact ih _
        · rw [if_neg c4]
          have hid : ¬ e.isId = true := by
            intro hid
            exact c4 (Bool.and_eq_true_iff.1 hid).2
          rw [List.filter_cons_of_neg hid]
          exact ih _
      · rw [if_neg c3]
        have hid : ¬ e.isId = true := by
          intro hid
          simp only [Entry.isId, Bool.and_eq_true, beq_iff_eq] at hid
          exact c3 ⟨hid.1, by rw [hid.2]; rfl⟩
        rw [List.filter_cons_of_neg hid]
        exact ih _

theorem after_append (l m : List (List UInt8)) (r : List Char) :
    after r (l ++ m) = (after r l).bind fun r => after r m := by
  induction l generalizing r with
  | nil => rfl
  | cons d l ih =>
    simp only [List.cons_append, after]
    split
    · rfl
    · exact ih _

theorem length_le (l : List Entry) : l.length ≤ (l.flatMap Entry.encode).length := by
  induction l with
  | nil => simp
  | cons e l ih =>
    have := encode_length e
    simp only [List.flatMap_cons, List.length_append, List.length_cons]
    omega

theorem segments_encoded : ∀ (l : List (Nat × List Entry)) (r : List Char),
    (∀ n ∈ l, (∃ k, k < 32 ∧ n.1 = 2 ^ k) ∧ ∀ e ∈ n.2, e.Padded n.1) →
    segments (notes l) r = .ok ((after r (ids l)).getD [])
  | [], r, _ => rfl
  | n :: l, r, h => by
    obtain ⟨⟨k, hk, hn⟩, hp⟩ := h n List.mem_cons_self
    have ih := fun r => segments_encoded l r fun x hx => h x (List.mem_cons_of_mem _ hx)
    have hlt : 2 ^ k < 2 ^ 32 := Nat.pow_lt_pow_right (by omega) hk
    have h1 := loop_encoded hk n.2 [] ((n.2.flatMap Entry.encode).length + 1) r
      (by rw [← hn]; exact hp) (by have := length_le n.2; omega)
    simp only [List.nil_append, List.length_nil] at h1
    rw [show ids (n :: l) = (n.2.filter Entry.isId).map Entry.desc ++ ids l from rfl, after_append]
    rw [show notes (n :: l) = ⟨n.2.flatMap Entry.encode, n.1⟩ :: notes l from rfl]
    unfold segments
    dsimp only
    rw [hn, Nat.mod_eq_of_lt hlt, h1]
    cases after r ((n.2.filter Entry.isId).map Entry.desc) with
    | none => rfl
    | some r' => exact ih r'

theorem hex_nil {d : List UInt8} : hex d = [] ↔ d = [] := by
  cases d with
  | nil => simp [hex]
  | cons a l => simp [hex]

theorem after_answer : ∀ l : List (List UInt8), (after [] l).getD [] = answer l
  | [] => rfl
  | [] :: l => by
    unfold after
    rw [if_neg (by simp)]
    exact after_answer l
  | (a :: d) :: l => by
    have hne : hex (a :: d) ≠ [] := fun h => by cases hex_nil.1 h
    unfold after answer
    rw [if_neg (by simp), List.dropWhile_cons_of_neg (by simp)]
    cases l with
    | nil => rfl
    | cons b l =>
      unfold after
      rw [if_pos hne]
      rfl

/-- C71.  If the note segments of a file hold well-formed notes, padded to any power of two, the
answer is the one build id there is, in hexadecimal, and empty if there is none or more than one. -/
theorem build_id_exact (l : List (Nat × List Entry))
    (h : ∀ n ∈ l, (∃ k, k < 32 ∧ n.1 = 2 ^ k) ∧ ∀ e ∈ n.2, e.Padded n.1) :
    getBuildId (notes l) = .ok (answer (ids l)) := by
  unfold getBuildId
  rw [segments_encoded l [] h, after_answer]

/-! ### Concrete files -/

/-- An ABI tag and a build id, aligned to 4, and a property note, aligned to 8. -/
def file0 : List (Nat × List Entry) :=
  [(4, [⟨1, [0x47, 0x4e, 0x55, 0], [], [0, 0, 0, 0], []⟩,
        ⟨3, [0x47, 0x4e, 0x55, 0], [], [0xde, 0xad, 0xbe], [0]⟩,
        ⟨3, [0x41, 0], [0, 0], [1], [0, 0, 0]⟩]),
   (8, [⟨5, [0x47, 0x4e, 0x55, 0], [], [2, 0, 0, 0xc0, 4, 0, 0, 0], []⟩])]

theorem file0_padded :
    ∀ n ∈ file0, (∃ k, k < 32 ∧ n.1 = 2 ^ k) ∧ ∀ e ∈ n.2, e.Padded n.1 := by
  intro n hn
  simp only [file0, List.mem_cons, List.not_mem_nil, or_false] at hn
  rcases hn with rfl | rfl
  · refine ⟨⟨2, by omega, rfl⟩, ?_⟩
    intro e he
    simp only [List.mem_cons, List.not_mem_nil, or_false] at he
    rcases he with rfl | rfl | rfl <;> constructor <;> decide
  · refine ⟨⟨3, by omega, rfl⟩, ?_⟩
    intro e he
    simp only [List.mem_cons, List.not_mem_nil, or_false] at he
    subst he
    constructor <;> decide

theorem file0_run : getBuildId (notes file0) = .ok ['d', 'e', 'a', 'd', 'b', 'e'] := by
  decide +kernel

/-- A corrupt segment: a name longer than the segment, and an alignment of 0. -/
theorem corrupt_run :
    getBuildId [⟨[255, 255, 255, 255, 4, 0, 0, 0, 3, 0, 0, 0], 4⟩,
      ⟨[4, 0, 0, 0, 0, 0, 0, 0, 3, 0, 0, 0, 0x47, 0x4e, 0x55, 0], 0⟩] = .ok [] := by
  decide +kernel

end Verif.ProfileProto.BuildId
