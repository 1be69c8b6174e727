import Verif.SizeMap.Model
/-! Helper lemmas for the size-class map. -/
namespace Verif.SizeMap

/-- Closed form of `ClassIndex` (used in proofs only). -/
def idxN (s : Nat) : Nat := if s ≤ 1024 then (s + 7) / 8 else (s + 15487) / 128

theorem classIndexMaybe_some {cfg : Cfg} {s : Nat} (h : s ≤ cfg.maxSize) :
    classIndexMaybe cfg s = some (idxN s) := by
  have e : ∀ x : Nat, (x + 127 + 120 * 128) = x + 15487 := by intro x; omega
  simp only [classIndexMaybe, idxN, kLargeSize, e, Nat.shiftRight_eq_div_pow, Nat.reducePow]
  by_cases h1 : s ≤ 1024
  · rw [if_pos h1, if_pos h1]
  · rw [if_neg h1, if_neg h1, if_pos h]

theorem classIndexMaybe_none {cfg : Cfg} {s : Nat} (hbig : 1024 ≤ cfg.maxSize)
    (h : cfg.maxSize < s) : classIndexMaybe cfg s = none := by
  unfold classIndexMaybe kLargeSize
  rw [if_neg (by omega), if_neg (by omega)]

theorem idxN_mono {a b : Nat} (h : a ≤ b) : idxN a ≤ idxN b := by
  unfold idxN; split <;> split <;> omega

theorem idxN_step {s : Nat} (h : s % 8 = 0) : idxN (s + 8) = idxN s ∨ idxN (s + 8) = idxN s + 1 := by
  unfold idxN; split <;> split <;> omega

/-- `m` is a legal class boundary. -/
def Bdry (m : Nat) : Prop := m % 8 = 0 ∧ (1024 < m → m % 128 = 0)

theorem idxN_bdry_succ {m : Nat} (h : Bdry m) : idxN (m + 8) = idxN m + 1 := by
  obtain ⟨h1, h2⟩ := h
  unfold idxN
  by_cases hm : 1024 < m
  · have := h2 hm; rw [if_neg (by omega), if_neg (by omega)]; omega
  · split <;> split <;> omega

theorem idxN_le_iff {m s : Nat} (h : Bdry m) : idxN s ≤ idxN m ↔ s ≤ m := by
  constructor
  · intro hle
    apply Classical.byContradiction
    intro hlt
    obtain ⟨h1, h2⟩ := h
    have : idxN m < idxN s := by
      unfold idxN
      by_cases hm : 1024 < m
      · have := h2 hm; rw [if_neg (by omega), if_neg (by omega)]; omega
      · split <;> split <;> omega
    omega
  · exact idxN_mono

theorem wrAll_spec (a : List Nat) (idx v : Nat) (offs : List Nat)
    (hb : ∀ o ∈ offs, idx + o < a.length) :
    ∃ a', wrAll a idx v offs = some a' ∧ a'.length = a.length ∧
      (∀ o ∈ offs, a'[idx + o]? = some v) ∧
      (∀ j, (∀ o ∈ offs, j ≠ idx + o) → a'[j]? = a[j]?) := by
  induction offs generalizing a with
  | nil => exact ⟨a, rfl, rfl, by simp, by simp⟩
  | cons o os ih =>
    have h0 : idx + o < a.length := hb o (by simp)
    obtain ⟨a', h1, h2, h3, h4⟩ := ih (a.set (idx + o) v) (by
      intro o' ho'; simpa using hb o' (by simp [ho']))
    refine ⟨a', ?_, by simpa using h2, ?_, ?_⟩
    · simp [wrAll, wr, h0, h1]
    · intro o' ho'
      by_cases hmem : o' ∈ os
      · exact h3 o' hmem
      · have hoo : o' = o := by simpa [hmem] using ho'
        subst hoo
        by_cases hclob : ∀ o'' ∈ os, idx + o' ≠ idx + o''
        · rw [h4 _ hclob]; simp [h0]
        · have ⟨o'', ho'', heq⟩ : ∃ o'' ∈ os, idx + o' = idx + o'' := by
            simpa using hclob
          rw [heq]; exact h3 o'' ho''
    · intro j hj
      rw [h4 j (fun o' ho' => hj o' (by simp [ho']))]
      have := hj o (by simp)
      rw [List.getElem?_set_ne (by omega)]

theorem fillClass_spec {cfg : Cfg} (offs : List Nat) (c : Nat)
    (max : Nat) (hmax8 : max % 8 = 0) (hmaxle : max ≤ cfg.maxSize) :
    ∀ (n s : Nat) (a : List Nat), max - s ≤ n → s % 8 = 0 → s ≤ max →
      (∀ o ∈ offs, idxN max + o < a.length) →
      ∃ a', fillClass cfg offs c s max a = some a' ∧ a'.length = a.length ∧
        (∀ o ∈ offs, ∀ i, idxN s ≤ i → i ≤ idxN max → a'[i + o]? = some c) ∧
        (∀ j, (∀ o ∈ offs, ∀ i, idxN s ≤ i → i ≤ idxN max → j ≠ i + o) → a'[j]? = a[j]?) := by
  intro n
  induction n using Nat.strongRecOn with
  | ind n ih =>
    intro s a hn hs8 hsm hb
    have hidx := classIndexMaybe_some (cfg := cfg) (Nat.le_trans hsm hmaxle)
    have hmono : idxN s ≤ idxN max := idxN_mono hsm
    obtain ⟨a1, w1, w2, w3, w4⟩ := wrAll_spec a (idxN s) c offs (by
      intro o ho; have := hb o ho; omega)
    rw [fillClass]
    simp only [hsm, if_true, hidx, Option.bind_eq_bind, Option.bind_some, w1]
    by_cases hlast : s + 8 ≤ max
    · obtain ⟨a2, f1, f2, f3, f4⟩ := ih (max - (s + 8)) (by omega) (s + 8) a1 (Nat.le_refl _)
        (by omega) hlast (by intro o ho; rw [w2]; exact hb o ho)
      refine ⟨a2, f1, by omega, ?_, ?_⟩
      · intro o ho i hi1 hi2
        by_cases hge : idxN (s + 8) ≤ i
        · exact f3 o ho i hge hi2
        · have hi : i = idxN s := by
            rcases idxN_step hs8 with h | h <;> omega
          subst hi
          by_cases hcl : ∀ o' ∈ offs, ∀ i, idxN (s + 8) ≤ i → i ≤ idxN max → idxN s + o ≠ i + o'
          · rw [f4 _ hcl]; exact w3 o ho
          · have ⟨o', ho', i', h1, h2, h3⟩ : ∃ o' ∈ offs, ∃ i, idxN (s + 8) ≤ i ∧ i ≤ idxN max ∧
                idxN s + o = i + o' := by
              simpa using hcl
            rw [h3]; exact f3 o' ho' i' h1 h2
      · intro j hj
        have hst : idxN s ≤ idxN (s + 8) := idxN_mono (by omega)
        rw [f4 j (fun o ho i h1 h2 => hj o ho i (by omega) h2)]
        exact w4 j (fun o ho => hj o ho (idxN s) (Nat.le_refl _) hmono)
    · have hse : s = max := by omega
      subst hse
      refine ⟨a1, ?_, w2, ?_, ?_⟩
      · rw [fillClass, if_neg (by simp only [kAlignment]; omega)]
      · intro o ho i h1 h2
        have : i = idxN s := by omega
        subst this; exact w3 o ho
      · intro j hj
        exact w4 j (fun o ho => hj o ho (idxN s) (Nat.le_refl _) (Nat.le_refl _))

/-- What the proofs need of the list of block sizes of a valid table. -/
structure GoodSizes (cfg : Cfg) (ts : List Nat) : Prop where
  two : 2 ≤ ts.length
  zero : ts[0]? = some 0
  incr : ∀ i j x y : Nat, i < j → ts[i]? = some x → ts[j]? = some y → x < y
  bdry : ∀ i x : Nat, ts[i]? = some x → Bdry x
  last : ts[ts.length - 1]? = some cfg.maxSize

theorem GoodSizes.le_max {cfg : Cfg} {ts : List Nat} (g : GoodSizes cfg ts) {i x : Nat}
    (h : ts[i]? = some x) : x ≤ cfg.maxSize := by
  have hi := (List.getElem?_eq_some_iff.1 h).1
  by_cases he : i = ts.length - 1
  · subst he; rw [g.last] at h; simp at h; omega
  · have := g.incr i (ts.length - 1) x _ (by omega) h g.last; omega

theorem fillLoop_spec {cfg : Cfg} (ts sizes : List Nat)
    (g : GoodSizes cfg ts) (base : Nat) (hs : ∀ c, c < ts.length → sizes[base + c]? = ts[c]?)
    (offs : List Nat) (skipZero : Bool) (stop : Nat) (hstop : base + ts.length ≤ stop)
    (hsep : ∀ o ∈ offs, ∀ o' ∈ offs, ∀ i i', i ≤ idxN cfg.maxSize → i' ≤ idxN cfg.maxSize →
      i + o = i' + o' → i = i') :
    ∀ (n c next : Nat) (a : List Nat) (mx : Nat), ts.length - c ≤ n → 1 ≤ c →
      ts[c]? = some mx → next % 8 = 0 → next ≤ mx →
      (∀ o ∈ offs, idxN cfg.maxSize + o < a.length) →
      ∃ a', fillLoop cfg sizes offs skipZero stop (base + c) next a = some a' ∧
        a'.length = a.length ∧
        (∀ o ∈ offs, ∀ i, idxN next ≤ i → i ≤ idxN mx → a'[i + o]? = some (base + c)) ∧
        (∀ o ∈ offs, ∀ c' lo hi, c < c' → ts[c' - 1]? = some lo → ts[c']? = some hi →
          ∀ i, idxN lo < i → i ≤ idxN hi → a'[i + o]? = some (base + c')) ∧
        (∀ j, (∀ o ∈ offs, ∀ i, idxN next ≤ i → i ≤ idxN cfg.maxSize → j ≠ i + o) →
          a'[j]? = a[j]?) := by
  intro n
  induction n with
  | zero =>
    intro c next a mx hn hc hmx
    have := (List.getElem?_eq_some_iff.1 hmx).1
    omega
  | succ n ih =>
    intro c next a mx hn hc hmx hn8 hnext hb
    have hclen := (List.getElem?_eq_some_iff.1 hmx).1
    have hmxle := g.le_max hmx
    have hbd := g.bdry c mx hmx
    have hmx0 : mx ≠ 0 := by
      have := g.incr 0 c 0 mx (by omega) g.zero hmx; omega
    have hmono : idxN mx ≤ idxN cfg.maxSize := idxN_mono hmxle
    obtain ⟨a1, f1, f2, f3, f4⟩ := fillClass_spec (cfg := cfg) offs (base + c) mx hbd.1 hmxle
      (mx - next) next a (Nat.le_refl _) hn8 hnext (by intro o ho; have := hb o ho; omega)
    rw [fillLoop]
    have hlt : base + c < stop := by omega
    simp only [hlt, if_true, hs c hclen, hmx, Option.bind_eq_bind, Option.bind_some, f1]
    have hz : (skipZero && decide (mx = 0)) = false := by simp [hmx0]
    rw [hz]
    simp only [Bool.false_eq_true, if_false]
    by_cases hlast : c = ts.length - 1
    · have hmm : mx = cfg.maxSize := by
        have := g.last; rw [← hlast, hmx] at this; simpa using this
      rw [if_pos (by simp only [kAlignment]; omega)]
      refine ⟨a1, rfl, f2, f3, ?_, ?_⟩
      · intro o ho c' lo hi hcc h1 h2
        have := (List.getElem?_eq_some_iff.1 h2).1
        omega
      · intro j hj; exact f4 j (fun o ho i h1 h2 => hj o ho i h1 (by omega))
    · have hc1 : c + 1 < ts.length := by omega
      obtain ⟨mx', hmx'⟩ : ∃ y, ts[c + 1]? = some y := ⟨ts[c + 1], by simp [hc1]⟩
      have hlt' := g.incr c (c + 1) mx mx' (by omega) hmx hmx'
      have hbd' := g.bdry (c + 1) mx' hmx'
      have hle' := g.le_max hmx'
      have h8 : mx + 8 ≤ mx' := by have := hbd.1; have := hbd'.1; omega
      rw [if_neg (by simp only [kAlignment]; omega)]
      obtain ⟨a2, k1, k2, k3, k4, k5⟩ := ih (c + 1) (mx + 8) a1 mx' (by omega) (by omega) hmx'
        (by have := hbd.1; omega) h8 (by intro o ho; rw [f2]; exact hb o ho)
      have hsucc := idxN_bdry_succ hbd
      refine ⟨a2, by simpa [kAlignment, Nat.add_assoc] using k1, by omega, ?_, ?_, ?_⟩
      · intro o ho i h1 h2
        rw [k5]
        · exact f3 o ho i h1 h2
        · intro o' ho' i' h1' h2' heq
          have := hsep o ho o' ho' i i' (by omega) h2' heq
          omega
      · intro o ho c' lo hi hcc h1 h2 i hi1 hi2
        by_cases hce : c' = c + 1
        · subst hce
          have : lo = mx := by simpa [hmx] using h1.symm
          subst this
          have : hi = mx' := by simpa [hmx'] using h2.symm
          subst this
          exact k3 o ho i (by omega) hi2
        · exact k4 o ho c' lo hi (by omega) h1 h2 i hi1 hi2
      · intro j hj
        have hnm : idxN next ≤ idxN (mx + 8) := idxN_mono (by omega)
        rw [k5 j (fun o ho i h1 h2 => hj o ho i (by omega) h2)]
        exact f4 j (fun o ho i h1 h2 => hj o ho i h1 (by omega))

theorem copyReg_spec (k src dst : Nat) (a : List Nat) (h1 : src + k ≤ a.length)
    (h2 : dst + k ≤ a.length) :
    ∃ a', copyReg k src dst a = some a' ∧ a'.length = a.length ∧
      (∀ i, i < k → a'[dst + i]? = a[src + i]?) ∧
      (∀ j, (j < dst ∨ dst + k ≤ j) → a'[j]? = a[j]?) := by
  refine ⟨_, by simp only [copyReg]; rw [if_pos ⟨h1, h2⟩], ?_, ?_, ?_⟩
  · simp; omega
  · intro i hi
    rw [List.append_assoc, List.getElem?_append_right (by simp; omega)]
    rw [List.getElem?_append_left (by simp; omega)]
    simp [Nat.min_eq_left (show dst ≤ a.length by omega), hi]
  · intro j hj
    rcases hj with hj | hj
    · rw [List.append_assoc, List.getElem?_append_left (by simp; omega)]
      simp [hj]
    · rw [List.append_assoc, List.getElem?_append_right (by simp; omega)]
      rw [List.getElem?_append_right (by simp; omega)]
      simp
      congr 1
      omega

theorem copyHot_spec (k : Nat) : ∀ (n i : Nat) (a : List Nat), 1 ≤ i → k * (i + n) ≤ a.length →
    ∃ a', copyHot k i n a = some a' ∧ a'.length = a.length ∧
      (∀ r, i ≤ r → r < i + n → ∀ x, x < k → a'[k * r + x]? = a[x]?) ∧
      (∀ j, j < k * i ∨ k * (i + n) ≤ j → a'[j]? = a[j]?) := by
  intro n
  induction n with
  | zero => intro i a hi hl; exact ⟨a, rfl, rfl, by intro r h1 h2; omega, by intros; rfl⟩
  | succ n ih =>
    intro i a hi hl
    have e1 : k * (i + (n + 1)) = k * i + k + k * n := by
      rw [Nat.mul_add, Nat.mul_add]; omega
    have e2 : k * (i + 1 + n) = k * i + k + k * n := by
      rw [Nat.mul_add, Nat.mul_add]; omega
    have hk1 : k * 1 ≤ k * i := Nat.mul_le_mul_left k hi
    obtain ⟨a1, c1, c2, c3, c4⟩ := copyReg_spec k 0 (k * i) a (by omega) (by omega)
    obtain ⟨a2, d1, d2, d3, d4⟩ := ih (i + 1) a1 (by omega) (by omega)
    refine ⟨a2, by simp [copyHot, c1, d1], by omega, ?_, ?_⟩
    · intro r h1 h2 x hx
      by_cases hr : r = i
      · subst hr
        rw [d4 _ (Or.inl (by rw [Nat.mul_add]; omega)), c3 x hx]; simp
      · rw [d3 r (by omega) (by omega) x hx, c4 x (Or.inl (by omega))]
    · intro j hj
      have e3 : k * (i + 1) = k * i + k := by rw [Nat.mul_add]; omega
      rw [d4 j (by omega), c4 j (by omega)]

end Verif.SizeMap
