import Verif.PageMap.Spec
namespace Verif.PageMap

theorem unpack_pack {s sc : Nat} (hs : s < 2 ^ 48) (hc : sc < 2 ^ 16) :
    unpackSpan (pack s sc) = s ∧ unpackClass (pack s sc) = sc := by
  have e : (sc <<< 48) ||| s = sc * 2 ^ 48 + s := by
    rw [Nat.shiftLeft_eq, Nat.mul_comm, Nat.two_pow_add_eq_or_of_lt hs]
  unfold unpackSpan unpackClass pack
  rw [e, Nat.and_two_pow_sub_one_eq_mod, Nat.shiftRight_eq_div_pow]
  omega

theorem i1_eq (c : Cfg) (k : Nat) : i1 c k = k / 2 ^ c.leafBits / 2 ^ c.midBits := by
  unfold i1
  rw [Nat.shiftRight_eq_div_pow, Nat.pow_add, Nat.div_div_eq_div_mul]

theorem i2_eq (c : Cfg) (k : Nat) : i2 c k = k / 2 ^ c.leafBits % 2 ^ c.midBits := by
  unfold i2
  rw [Nat.and_two_pow_sub_one_eq_mod, Nat.shiftRight_eq_div_pow]

theorem i3_eq (c : Cfg) (k : Nat) : i3 c k = k % 2 ^ c.leafBits := by
  unfold i3
  rw [Nat.and_two_pow_sub_one_eq_mod]

/-- Same leaf = same page number up to the leaf bits. -/
theorem same_leaf (c : Cfg) (k k' : Nat) :
    (i1 c k' = i1 c k ∧ i2 c k' = i2 c k) ↔ k' / 2 ^ c.leafBits = k / 2 ^ c.leafBits := by
  rw [i1_eq, i1_eq, i2_eq, i2_eq]
  constructor
  · rintro ⟨a, b⟩
    rw [← Nat.div_add_mod (k' / 2 ^ c.leafBits) (2 ^ c.midBits), a, b, Nat.div_add_mod]
  · intro h; rw [h]; exact ⟨rfl, rfl⟩

theorem same_slot (c : Cfg) (k k' : Nat) :
    (k' / 2 ^ c.leafBits = k / 2 ^ c.leafBits ∧ i3 c k' = i3 c k) ↔ k' = k := by
  rw [i3_eq, i3_eq]
  constructor
  · rintro ⟨a, b⟩
    rw [← Nat.div_add_mod k' (2 ^ c.leafBits), a, b, Nat.div_add_mod]
  · rintro rfl; exact ⟨rfl, rfl⟩

theorem huge_shift {c : Cfg} (hc : c.OK) : c.leafBits - c.leafHugeBits = 21 - c.pageShift ∧
    21 - c.pageShift ≤ c.leafBits := by
  have := hc.leaf; have := hc.page
  unfold Cfg.leafHugeBits; omega

theorem same_huge {c : Cfg} (hc : c.OK) (k k' : Nat) :
    (k' / 2 ^ c.leafBits = k / 2 ^ c.leafBits ∧
      i3 c k' >>> (c.leafBits - c.leafHugeBits) = i3 c k >>> (c.leafBits - c.leafHugeBits)) ↔
    k' / 2 ^ (21 - c.pageShift) = k / 2 ^ (21 - c.pageShift) := by
  obtain ⟨e, hle⟩ := huge_shift hc
  rw [e, i3_eq, i3_eq, Nat.shiftRight_eq_div_pow, Nat.shiftRight_eq_div_pow]
  generalize hd : 21 - c.pageShift = d at *
  have hpow : 2 ^ c.leafBits = 2 ^ d * 2 ^ (c.leafBits - d) := by
    rw [← Nat.pow_add]; congr 1; omega
  rw [hpow]
  generalize 2 ^ (c.leafBits - d) = B
  have hA : 0 < 2 ^ d := Nat.pow_pos (by omega)
  generalize 2 ^ d = A at *
  have h1 : ∀ x, x / (A * B) = x / A / B := fun x => (Nat.div_div_eq_div_mul x A B).symm
  have h2 : ∀ x, x % (A * B) / A = x / A % B := fun x => Nat.mod_mul_right_div_self x A B
  rw [h1, h1, h2, h2]
  constructor
  · rintro ⟨a, b⟩
    rw [← Nat.div_add_mod (k' / A) B, a, b, Nat.div_add_mod]
  · intro h; rw [h]; exact ⟨rfl, rfl⟩

theorem in_root {c : Cfg} (hc : c.OK) (k : Nat) : i1 c k < c.rootLength ↔ k < 2 ^ c.bits := by
  unfold i1 Cfg.rootLength
  have hr := hc.root
  have e : c.bits = (c.leafBits + c.midBits) + c.rootBits := by unfold Cfg.rootBits at *; omega
  rw [Nat.shiftRight_eq_div_pow, Nat.shiftLeft_eq, Nat.one_mul, Nat.div_lt_iff_lt_mul (Nat.pow_pos (by omega)),
    ← Nat.pow_add, Nat.add_comm c.rootBits, ← e]

theorem out_bits (c : Cfg) (k : Nat) : k >>> c.bits > 0 ↔ ¬ k < 2 ^ c.bits := by
  rw [Nat.shiftRight_eq_div_pow, gt_iff_lt, Nat.div_pos_iff]
  have := Nat.pow_pos (n := c.bits) (show 0 < 2 by omega)
  omega

theorem leafOf_in {c : Cfg} (hc : c.OK) {m : Map} {k : Nat} (hk : k < 2 ^ c.bits) :
    leafOf c m k = match m.root (i1 c k) with
      | none => none
      | some node => node (i2 c k) := by
  unfold leafOf rootAt
  rw [if_pos ((in_root hc k).2 hk)]
  cases m.root (i1 c k) <;> rfl

theorem leafOf_out {c : Cfg} (hc : c.OK) {m : Map} {k : Nat} (hk : ¬ k < 2 ^ c.bits) :
    leafOf c m k = none := by
  unfold leafOf rootAt
  rw [if_neg (fun h => hk ((in_root hc k).1 h))]

/-- The checked lookups in terms of `leafOf`. -/
theorem lookups_eq {c : Cfg} (hc : c.OK) (m : Map) (k : Nat) :
    get c m k = (match leafOf c m k with
      | none => 0 | some l => unpackSpan (l.packed (i3 c k))) ∧
    getWithClass c m k = (match leafOf c m k with
      | none => (0, 0)
      | some l => (unpackSpan (l.packed (i3 c k)), unpackClass (l.packed (i3 c k)))) ∧
    sizeclass c m k = (match leafOf c m k with
      | none => 0 | some l => l.sizeclass (i3 c k)) ∧
    hasLeaf c m k = (leafOf c m k).isSome := by
  by_cases hk : k < 2 ^ c.bits
  · have h0 : ¬ k >>> c.bits > 0 := fun h => (out_bits c k).1 h hk
    have h1 : ¬ i1 c k ≥ c.rootLength := by have := (in_root hc k).2 hk; omega
    unfold get getWithClass sizeclass hasLeaf
    rw [leafOf_in hc hk, if_neg h0, if_neg h0, if_neg h0, if_neg h0, if_neg h1]
    cases m.root (i1 c k) with
    | none => exact ⟨rfl, rfl, rfl, rfl⟩
    | some node =>
      simp only []
      cases node (i2 c k) <;> simp
  · have h0 : k >>> c.bits > 0 := (out_bits c k).2 hk
    unfold get getWithClass sizeclass hasLeaf
    rw [leafOf_out hc hk, if_pos h0, if_pos h0, if_pos h0, if_pos h0]
    exact ⟨rfl, rfl, rfl, rfl⟩

theorem modLeaf_spec {c : Cfg} {m : Map} {k : Nat} {f : Leaf → Leaf} :
    (leafOf c m k = none ∧ modLeaf c m k f = none) ∨
    ∃ leaf m', leafOf c m k = some leaf ∧ modLeaf c m k f = some m' ∧
      ∀ k', leafOf c m' k' =
        if k' / 2 ^ c.leafBits = k / 2 ^ c.leafBits then some (f leaf) else leafOf c m k' := by
  unfold modLeaf
  cases hr : rootAt c m (i1 c k) with
  | none => left; exact ⟨by unfold leafOf; rw [hr], rfl⟩
  | some o =>
    cases o with
    | none => left; exact ⟨by unfold leafOf; rw [hr], rfl⟩
    | some node =>
      cases hn : node (i2 c k) with
      | none => left; exact ⟨by unfold leafOf; rw [hr]; exact hn, by simp only [hn]⟩
      | some leaf =>
        right
        refine ⟨leaf, _, by unfold leafOf; rw [hr]; exact hn, by simp only [hn]; rfl, ?_⟩
        have hlt : i1 c k < c.rootLength := by
          unfold rootAt at hr; split at hr
          · assumption
          · simp at hr
        have hroot : m.root (i1 c k) = some node := by
          unfold rootAt at hr; rw [if_pos hlt] at hr; simpa using hr
        intro k'
        simp only [← same_leaf c k k']
        unfold leafOf rootAt
        by_cases h1 : i1 c k' = i1 c k
        · rw [h1, if_pos hlt, if_pos hlt, hroot]
          by_cases h2 : i2 c k' = i2 c k
          · simp [h2, upd]
          · simp [h2, upd]
        · have hn' : ¬ (i1 c k' = i1 c k ∧ i2 c k' = i2 c k) := fun h => h1 h.1
          simp only [if_neg hn', upd, if_neg h1]

/-! ### Refinement -/

/-- The map holds exactly the view. -/
structure R (c : Cfg) (m : Map) (v : View) : Prop where
  some : ∀ k leaf, leafOf c m k = some leaf →
    unpackSpan (leaf.packed (i3 c k)) = v.span k ∧ unpackClass (leaf.packed (i3 c k)) = v.cls k ∧
    leaf.sizeclass (i3 c k) = v.fast k ∧
    leaf.hugepage (i3 c k >>> (c.leafBits - c.leafHugeBits)) = v.huge (k / 2 ^ (21 - c.pageShift))
  none : ∀ k, leafOf c m k = none →
    v.span k = 0 ∧ v.cls k = 0 ∧ v.fast k = 0 ∧ v.huge (k / 2 ^ (21 - c.pageShift)) = 0

theorem R.init (c : Cfg) : R c Map.init View.init := by
  have h : ∀ k, leafOf c Map.init k = Option.none := by
    intro k; unfold leafOf rootAt Map.init; split <;> rename_i h <;> simp_all
  exact ⟨fun k leaf e => by rw [h k] at e; simp at e, fun k _ => ⟨rfl, rfl, rfl, rfl⟩⟩

/-- A page-level update through `modLeaf`. -/
theorem R.mod {c : Cfg} {m m' : Map} {v v' : View} {k : Nat} {f : Leaf → Leaf} (h : R c m v)
    (e : modLeaf c m k f = Option.some m')
    (hin : ∀ leaf, leafOf c m k = Option.some leaf → ∀ k', k' / 2 ^ c.leafBits = k / 2 ^ c.leafBits →
      unpackSpan (leaf.packed (i3 c k')) = v.span k' ∧ unpackClass (leaf.packed (i3 c k')) = v.cls k' ∧
      leaf.sizeclass (i3 c k') = v.fast k' ∧
      leaf.hugepage (i3 c k' >>> (c.leafBits - c.leafHugeBits)) = v.huge (k' / 2 ^ (21 - c.pageShift)) →
      unpackSpan ((f leaf).packed (i3 c k')) = v'.span k' ∧
      unpackClass ((f leaf).packed (i3 c k')) = v'.cls k' ∧
      (f leaf).sizeclass (i3 c k') = v'.fast k' ∧
      (f leaf).hugepage (i3 c k' >>> (c.leafBits - c.leafHugeBits)) =
        v'.huge (k' / 2 ^ (21 - c.pageShift)))
    (hout : ∀ k', k' / 2 ^ c.leafBits ≠ k / 2 ^ c.leafBits →
      v'.span k' = v.span k' ∧ v'.cls k' = v.cls k' ∧ v'.fast k' = v.fast k' ∧
      v'.huge (k' / 2 ^ (21 - c.pageShift)) = v.huge (k' / 2 ^ (21 - c.pageShift))) :
    R c m' v' := by
  rcases modLeaf_spec (c := c) (m := m) (k := k) (f := f) with ⟨_, e'⟩ | ⟨leaf, m'', hl, e', hall⟩
  · rw [e'] at e; simp at e
  · rw [e'] at e
    simp only [Option.some.injEq] at e
    subst e
    have hsame : ∀ k', k' / 2 ^ c.leafBits = k / 2 ^ c.leafBits → leafOf c m k' = Option.some leaf := by
      intro k' hk'
      have hs := (same_leaf c k k').2 hk'
      unfold leafOf at hl ⊢
      rw [hs.1, hs.2]; exact hl
    constructor
    · intro k' leaf' hl'
      rw [hall k'] at hl'
      split at hl'
      · rename_i hk'
        simp only [Option.some.injEq] at hl'
        subst hl'
        exact hin leaf hl k' hk' (h.some k' leaf (hsame k' hk'))
      · rename_i hk'
        obtain ⟨a, b, c', d⟩ := hout k' hk'
        rw [a, b, c', d]
        exact h.some k' leaf' hl'
    · intro k' hl'
      rw [hall k'] at hl'
      split at hl'
      · simp at hl'
      · rename_i hk'
        obtain ⟨a, b, c', d⟩ := hout k' hk'
        rw [a, b, c', d]
        exact h.none k' hl'

theorem slot_ne {c : Cfg} {k k' : Nat} (h : k' / 2 ^ c.leafBits = k / 2 ^ c.leafBits) (hne : k' ≠ k) :
    i3 c k' ≠ i3 c k := fun e => hne ((same_slot c k k').1 ⟨h, e⟩)

theorem R.set {c : Cfg} {m m' : Map} {v : View} {k s : Nat} (h : R c m v) (hs : s < 2 ^ 48)
    (e : set c m k s = Option.some m') : R c m' (v.step c (.set k s)) := by
  refine h.mod e ?_ ?_
  · intro leaf _ k' hk' old
    simp only [View.step, upd]
    by_cases hkk : k' = k
    · subst hkk
      rw [if_pos rfl, if_pos rfl, if_pos rfl]
      obtain ⟨a, b⟩ := unpack_pack hs (show 0 < 2 ^ 16 by omega)
      exact ⟨a, b, old.2.2⟩
    · rw [if_neg (slot_ne hk' hkk), if_neg hkk, if_neg hkk]
      exact old
  · intro k' hk'
    have : k' ≠ k := by rintro rfl; exact hk' rfl
    simp [View.step, this]

theorem R.setWithClass {c : Cfg} {m m' : Map} {v : View} {k s sc : Nat} (h : R c m v)
    (hs : s < 2 ^ 48) (hsc : sc < 2 ^ 16)
    (e : setWithClass c m k s sc = Option.some m') : R c m' (v.step c (.register s sc k 1)) := by
  have hin : ∀ p, (k ≤ p ∧ p < k + 1) ↔ p = k := by intro p; omega
  refine h.mod e ?_ ?_
  · intro leaf _ k' hk' old
    simp only [View.step, upd, hin]
    by_cases hkk : k' = k
    · subst hkk
      rw [if_pos rfl, if_pos rfl, if_pos rfl, if_pos rfl, if_pos rfl]
      obtain ⟨a, b⟩ := unpack_pack hs hsc
      exact ⟨a, b, rfl, old.2.2.2⟩
    · rw [if_neg (slot_ne hk' hkk), if_neg hkk, if_neg hkk, if_neg (slot_ne hk' hkk), if_neg hkk]
      exact old
  · intro k' hk'
    have : k' ≠ k := by rintro rfl; exact hk' rfl
    simp only [View.step, hin, if_neg this, and_self]

theorem R.clearClass {c : Cfg} {m m' : Map} {v : View} {k : Nat} (h : R c m v)
    (e : clearClass c m k = Option.some m') : R c m' (v.step c (.unregister k 1)) := by
  have hin : ∀ p, (k ≤ p ∧ p < k + 1) ↔ p = k := by intro p; omega
  refine h.mod e ?_ ?_
  · intro leaf _ k' hk' old
    simp only [View.step, upd, hin]
    by_cases hkk : k' = k
    · subst hkk
      rw [if_pos rfl, if_pos rfl]
      exact ⟨old.1, old.2.1, rfl, old.2.2.2⟩
    · rw [if_neg (slot_ne hk' hkk), if_neg hkk]
      exact old
  · intro k' hk'
    have : k' ≠ k := by rintro rfl; exact hk' rfl
    simp only [View.step, hin, if_neg this, and_self]

theorem R.setHuge {c : Cfg} (hc : c.OK) {m m' : Map} {v : View} {k x : Nat} (h : R c m v)
    (e : setHuge c m k x = Option.some m') : R c m' (v.step c (.setHuge k x)) := by
  refine h.mod e ?_ ?_
  · intro leaf _ k' hk' old
    refine ⟨old.1, old.2.1, old.2.2.1, ?_⟩
    simp only [View.step, upd]
    by_cases hkk : k' / 2 ^ (21 - c.pageShift) = k / 2 ^ (21 - c.pageShift)
    · rw [if_pos hkk, if_pos ((same_huge hc k k').2 hkk).2]
    · rw [if_neg hkk, if_neg (fun e => hkk ((same_huge hc k k').1 ⟨hk', e⟩))]
      exact old.2.2.2
  · intro k' hk'
    have : k' / 2 ^ (21 - c.pageShift) ≠ k / 2 ^ (21 - c.pageShift) := by
      intro e; exact hk' ((same_huge hc k k').2 e).1
    simp [View.step, this]

theorem View.ext' {a b : View} (h1 : ∀ p, a.span p = b.span p) (h2 : ∀ p, a.cls p = b.cls p)
    (h3 : ∀ p, a.fast p = b.fast p) (h4 : ∀ p, a.huge p = b.huge p) : a = b := by
  cases a; cases b
  simp only [View.mk.injEq]
  exact ⟨funext h1, funext h2, funext h3, funext h4⟩

theorem R.register {c : Cfg} {s sc : Nat} (hs : s < 2 ^ 48) (hsc : sc < 2 ^ 16) :
    ∀ (n p : Nat) (m m' : Map) (v : View), R c m v → registerLoop c m s sc n p = Option.some m' →
      R c m' (v.step c (.register s sc p n)) := by
  intro n
  induction n with
  | zero =>
    intro p m m' v h e
    simp only [registerLoop, Option.some.injEq] at e
    subst e
    have : v.step c (.register s sc p 0) = v := by
      apply View.ext' <;> intro q <;> simp [View.step] <;> omega
    rw [this]; exact h
  | succ n ih =>
    intro p m m' v h e
    rw [registerLoop] at e
    cases h1 : PageMap.setWithClass c m p s sc with
    | none => rw [h1] at e; simp at e
    | some m1 =>
      rw [h1] at e
      have r := ih (p + 1) m1 m' _ (h.setWithClass hs hsc h1) e
      have : (v.step c (.register s sc p 1)).step c (.register s sc (p + 1) n) =
          v.step c (.register s sc p (n + 1)) := by
        apply View.ext' <;> intro q <;> simp only [View.step] <;>
          (repeat' split) <;> first | rfl | (exfalso; omega)
      rw [this] at r; exact r

theorem R.unregister {c : Cfg} :
    ∀ (n p : Nat) (m m' : Map) (v : View), R c m v → unregisterLoop c m n p = Option.some m' →
      R c m' (v.step c (.unregister p n)) := by
  intro n
  induction n with
  | zero =>
    intro p m m' v h e
    simp only [unregisterLoop, Option.some.injEq] at e
    subst e
    have : v.step c (.unregister p 0) = v := by
      apply View.ext' <;> intro q <;> simp [View.step] <;> omega
    rw [this]; exact h
  | succ n ih =>
    intro p m m' v h e
    rw [unregisterLoop] at e
    cases h1 : PageMap.clearClass c m p with
    | none => rw [h1] at e; simp at e
    | some m1 =>
      rw [h1] at e
      have r := ih (p + 1) m1 m' _ (h.clearClass h1) e
      have : (v.step c (.unregister p 1)).step c (.unregister (p + 1) n) =
          v.step c (.unregister p (n + 1)) := by
        apply View.ext' <;> intro q <;> simp only [View.step] <;>
          (repeat' split) <;> first | rfl | (exfalso; omega)
      rw [this] at r; exact r

/-! ### Ensure -/

/-- Growing the tree: leaves are kept, new ones are zero. -/
def Grows (c : Cfg) (m m' : Map) : Prop :=
  ∀ k, leafOf c m' k = leafOf c m k ∨ (leafOf c m k = none ∧ leafOf c m' k = some Leaf.zero)

theorem Grows.refl (c : Cfg) (m : Map) : Grows c m m := fun _ => Or.inl rfl

theorem Grows.trans {c : Cfg} {a b d : Map} (h1 : Grows c a b) (h2 : Grows c b d) : Grows c a d := by
  intro k
  rcases h1 k with e1 | ⟨e1, e2⟩ <;> rcases h2 k with e3 | ⟨e3, e4⟩
  · left; rw [e3, e1]
  · right; exact ⟨by rw [← e1, e3], e4⟩
  · right; exact ⟨e1, by rw [e3, e2]⟩
  · rw [e2] at e3; simp at e3

theorem leafOf_root {c : Cfg} {m : Map} {root' : Nat → Option Node} {a k : Nat} (n : Nat) :
    i1 c k ≠ a → leafOf c ⟨upd m.root a (root' a), n⟩ k = leafOf c m k := by
  intro h
  unfold leafOf rootAt
  simp only [upd, if_neg h]

theorem ensureKey_spec {c : Cfg} (al : Nat → Bool) (m : Map) (key : Nat) :
    Grows c m (ensureKey c al m key).1 ∧
    ((ensureKey c al m key).2 = true →
      ∀ k, k / 2 ^ c.leafBits = key / 2 ^ c.leafBits → leafOf c (ensureKey c al m key).1 k ≠ none) := by
  unfold ensureKey
  split
  · exact ⟨Grows.refl c m, by simp⟩
  · rename_i hlt
    have hlt' : i1 c key < c.rootLength := by omega
    cases hr : m.root (i1 c key) with
    | none =>
      simp only []
      have hnone : ∀ k, i1 c k = i1 c key → leafOf c m k = none := by
        intro k hk; unfold leafOf rootAt; rw [hk, if_pos hlt', hr]
      split
      · exact ⟨Grows.refl c m, by simp⟩
      · split
        · refine ⟨fun k => ?_, by simp⟩
          left
          by_cases hk : i1 c k = i1 c key
          · rw [hnone k hk]; unfold leafOf rootAt; rw [hk, if_pos hlt']; simp [upd]
          · unfold leafOf rootAt; simp only [upd, if_neg hk]
        · have key' : ∀ k n, leafOf c ⟨upd (upd m.root (i1 c key) (some fun _ => none)) (i1 c key)
              (some (upd (fun _ => none) (i2 c key) (some Leaf.zero))), n⟩ k =
              if i1 c k = i1 c key ∧ i2 c k = i2 c key then some Leaf.zero else leafOf c m k := by
            intro k n
            by_cases hk : i1 c k = i1 c key
            · rw [hnone k hk]
              unfold leafOf rootAt
              rw [hk, if_pos hlt']
              simp [upd]
            · rw [if_neg (fun h => hk h.1)]
              unfold leafOf rootAt
              simp only [upd, if_neg hk]
          constructor
          · intro k
            rw [key']
            split
            · rename_i h; right; exact ⟨hnone k h.1, rfl⟩
            · left; rfl
          · intro _ k hk
            rw [key', if_pos ((same_leaf c key k).2 hk)]
            simp
    | some node =>
      simp only []
      cases hn : node (i2 c key) with
      | some leaf =>
        simp only []
        refine ⟨Grows.refl c m, fun _ k hk => ?_⟩
        obtain ⟨a, b⟩ := (same_leaf c key k).2 hk
        unfold leafOf rootAt
        rw [a, if_pos hlt', hr]
        simp only [b, hn]; simp
      | none =>
        simp only []
        split
        · exact ⟨Grows.refl c m, by simp⟩
        · have key' : ∀ k n, leafOf c ⟨upd m.root (i1 c key)
              (some (upd node (i2 c key) (some Leaf.zero))), n⟩ k =
              if i1 c k = i1 c key ∧ i2 c k = i2 c key then some Leaf.zero else leafOf c m k := by
            intro k n
            by_cases hk : i1 c k = i1 c key
            · unfold leafOf rootAt
              rw [hk, if_pos hlt', if_pos hlt', hr]
              simp [upd]
            · rw [if_neg (fun h => hk h.1)]
              unfold leafOf rootAt
              simp only [upd, if_neg hk]
          constructor
          · intro k
            rw [key']
            split
            · rename_i h; right
              refine ⟨?_, rfl⟩
              unfold leafOf rootAt
              rw [h.1, if_pos hlt', hr]
              simp only [h.2, hn]
            · left; rfl
          · intro _ k hk
            rw [key', if_pos ((same_leaf c key k).2 hk)]
            simp

theorem ensureLoop_spec {c : Cfg} (al : Nat → Bool) (last : Nat) : ∀ (d key : Nat) (m : Map),
    last + 1 - key ≤ d →
    Grows c m (ensureLoop c al m key last).1 ∧
    ((ensureLoop c al m key last).2 = true →
      ∀ k, key ≤ k → k ≤ last → leafOf c (ensureLoop c al m key last).1 k ≠ none) := by
  intro d
  induction d with
  | zero =>
    intro key m hd
    rw [ensureLoop, if_neg (by omega)]
    exact ⟨Grows.refl c m, fun _ k _ _ => by omega⟩
  | succ d ih =>
    intro key m hd
    rw [ensureLoop]
    by_cases hle : key ≤ last
    · rw [if_pos hle]
      obtain ⟨g1, g2⟩ := ensureKey_spec (c := c) al m key
      generalize hek : ensureKey c al m key = r at *
      obtain ⟨m1, b⟩ := r
      cases b with
      | false => exact ⟨g1, by simp⟩
      | true =>
        simp only [] at g1 g2 ⊢
        have hnk : ((key >>> c.leafBits) + 1) <<< c.leafBits =
            (key / 2 ^ c.leafBits + 1) * 2 ^ c.leafBits := by
          rw [Nat.shiftLeft_eq, Nat.shiftRight_eq_div_pow]
        rw [hnk]
        have hA : 0 < 2 ^ c.leafBits := Nat.pow_pos (by omega)
        have hgt : key < (key / 2 ^ c.leafBits + 1) * 2 ^ c.leafBits := by
          have := Nat.lt_div_mul_add hA (a := key)
          rw [Nat.add_mul]; omega
        obtain ⟨i1', i2'⟩ := ih ((key / 2 ^ c.leafBits + 1) * 2 ^ c.leafBits) m1 (by omega)
        refine ⟨g1.trans i1', fun ht k h1 h2 => ?_⟩
        by_cases hk : (key / 2 ^ c.leafBits + 1) * 2 ^ c.leafBits ≤ k
        · exact i2' ht k hk h2
        · have hsame : k / 2 ^ c.leafBits = key / 2 ^ c.leafBits := by
            apply Nat.le_antisymm
            · have := (Nat.div_lt_iff_lt_mul hA).2 (by omega :
                k < (key / 2 ^ c.leafBits + 1) * 2 ^ c.leafBits)
              omega
            · exact Nat.div_le_div_right h1
          have := g2 (by trivial) k hsame
          rcases i1' k with e | ⟨e, e'⟩
          · rw [e]; exact this
          · exact absurd e this
    · rw [if_neg hle]
      exact ⟨Grows.refl c m, fun _ k _ _ => by omega⟩

theorem R.grow {c : Cfg} {m m' : Map} {v : View} (h : R c m v) (hg : Grows c m m') : R c m' v := by
  constructor
  · intro k leaf hl
    rcases hg k with e | ⟨e1, e2⟩
    · exact h.some k leaf (by rw [← e]; exact hl)
    · rw [e2] at hl
      simp only [Option.some.injEq] at hl
      subst hl
      obtain ⟨a, b, c', d⟩ := h.none k e1
      rw [a, b, c', d]
      refine ⟨?_, ?_, rfl, rfl⟩ <;> simp [unpackSpan, unpackClass, Leaf.zero]
  · intro k hl
    rcases hg k with e | ⟨e1, e2⟩
    · exact h.none k (by rw [← e]; exact hl)
    · rw [e2] at hl; simp at hl

theorem R.step {c : Cfg} (hc : c.OK) (al : Nat → Bool) {m m' : Map} {v : View} (h : R c m v) {o : Op}
    (ho : o.OK) (e : step c al m o = Option.some m') : R c m' (v.step c o) := by
  cases o with
  | ensure start n =>
    simp only [PageMap.step, Option.some.injEq] at e
    subst e
    exact h.grow (ensureLoop_spec al _ _ start m (Nat.le_refl _)).1
  | set k s => exact h.set ho e
  | register s sc first n => exact R.register ho.1 ho.2 n first m m' v h e
  | unregister first n => exact R.unregister n first m m' v h e
  | setHuge k x => exact h.setHuge hc e

theorem R.run {c : Cfg} (hc : c.OK) (al : Nat → Bool) : ∀ (os : List Op) (m m' : Map) (v : View),
    R c m v → (∀ o ∈ os, o.OK) → run c al m os = Option.some m' → R c m' (v.run c os) := by
  intro os
  induction os with
  | nil =>
    intro m m' v h _ e
    simp only [PageMap.run, Option.some.injEq] at e
    subst e; exact h
  | cons o os ih =>
    intro m m' v h ho e
    rw [PageMap.run] at e
    cases h1 : PageMap.step c al m o with
    | none => rw [h1] at e; simp at e
    | some m1 =>
      rw [h1] at e
      exact ih m1 m' _ (h.step hc al (ho o (by simp)) h1) (fun x hx => ho x (by simp [hx])) e

end Verif.PageMap
