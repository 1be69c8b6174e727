import Verif.HookList.Inv
namespace Verif.HookList

/-- Hooks with `P` in the list. -/
def cnt (P : Nat → Bool) (l : List Nat) : Nat := l.countP fun d => d != 0 && P d

def pendA (P : Nat → Bool) : Option Writer → Nat
  | some (.addEnd _ v _) => if P v then 1 else 0
  | _ => 0

def pendR (P : Nat → Bool) : Option Writer → Nat
  | some (.remEnd _ v _) => if P v then 1 else 0
  | _ => 0

/-- The holder of the lock is adding or removing `v`. -/
def Writer.about (v : Nat) : Writer → Bool
  | .addData _ w _ _ => w == v
  | .addEnd _ w _ => w == v
  | .remData _ w _ _ => w == v
  | .remEnd _ w _ => w == v

def busy (v : Nat) : Option Writer → Nat
  | some w => if w.about v then 1 else 0
  | none => 0

def b2n (b : Bool) : Nat := if b then 1 else 0

theorem cnt_set {P : Nat → Bool} {l : List Nat} {i : Nat} (hi : i < l.length) (v : Nat) :
    cnt P (l.set i v) + b2n (l.getD i 0 != 0 && P (l.getD i 0)) = cnt P l + b2n (v != 0 && P v) := by
  unfold cnt
  rw [List.countP_set hi, List.getD_eq_getElem?_getD, List.getElem?_eq_getElem hi]
  simp only [Option.getD_some, b2n]
  have : (if (l[i] != 0 && P l[i]) = true then 1 else 0) ≤ l.countP fun d => d != 0 && P d := by
    split
    · exact List.countP_pos_iff.2 ⟨l[i], List.getElem_mem hi, by assumption⟩
    · exact Nat.zero_le _
  omega

theorem bne_zero {v : Nat} (h : v ≠ 0) : (v != 0) = true := by simpa using h

theorem b2n_if (b : Bool) : (if b = true then 1 else 0) = b2n b := rfl

/-- Bookkeeping of one step. -/
theorem step_count {s s' : St} (I : Inv s) {e : Ev} {o : Out} (h : step s e = some (s', o)) (P : Nat → Bool) :
    cnt P s'.data + b2n (o.isRemove P) + pendR P s'.lock + pendA P s.lock =
      cnt P s.data + b2n (o.isAdd P) + pendA P s'.lock + pendR P s.lock := by
  cases e with
  | add t v =>
    simp only [HookList.step] at h
    split at h
    · cases h; simp only [Out.isRemove, Out.isAdd]; omega
    split at h
    · cases h
    rename_i hv hl
    have hl : s.lock = none := by cases hh : s.lock <;> simp_all
    split at h
    · cases h; simp only [Out.isRemove, Out.isAdd]; omega
    · cases h; rw [hl]; simp [Out.isRemove, Out.isAdd, pendA, pendR]
  | remove t v =>
    simp only [HookList.step] at h
    split at h
    · cases h; simp only [Out.isRemove, Out.isAdd]; omega
    split at h
    · cases h
    rename_i hv hl
    have hl : s.lock = none := by cases hh : s.lock <;> simp_all
    split at h
    · cases h; simp only [Out.isRemove, Out.isAdd]; omega
    · cases h; rw [hl]; simp [Out.isRemove, Out.isAdd, pendA, pendR]
  | write =>
    simp only [HookList.step] at h
    split at h
    · cases h
    · rename_i t v i e hw
      obtain ⟨h1, h2, h3, h4⟩ := I.writer _ hw
      split at h
      · rename_i hi
        have hs := cnt_set (P := P) hi v
        rw [h3, bne_zero h1, Bool.true_and] at hs
        have h00 : (0 != 0 && P 0) = false := rfl
        rw [h00] at hs
        split at h
        · cases h; rw [hw]; simp only [Out.isRemove, Out.isAdd, pendA, pendR]
          simp only [b2n] at hs ⊢; simp only [Bool.false_eq_true, if_false] at hs ⊢; omega
        · cases h; rw [hw]; simp only [Out.isRemove, Out.isAdd, pendA, pendR]
          simp only [b2n] at hs ⊢; simp only [Bool.false_eq_true, if_false] at hs ⊢; omega
      · cases h
    · rename_i t v i hw
      cases h; rw [hw]; simp only [Out.isRemove, Out.isAdd, pendA, pendR, b2n_if]; simp only [b2n, Bool.false_eq_true, if_false]; omega
    · rename_i t v i e hw
      obtain ⟨h1, h2, h3, h4⟩ := I.writer _ hw
      split at h
      · rename_i hi
        have hs := cnt_set (P := P) hi 0
        rw [h4, bne_zero h1, Bool.true_and] at hs
        have h00 : (0 != 0 && P 0) = false := rfl
        rw [h00] at hs
        split at h
        · cases h; rw [hw]; simp only [Out.isRemove, Out.isAdd, pendA, pendR]
          simp only [b2n] at hs ⊢; simp only [Bool.false_eq_true, if_false] at hs ⊢; omega
        · cases h; rw [hw]; simp only [Out.isRemove, Out.isAdd, pendA, pendR]
          simp only [b2n] at hs ⊢; simp only [Bool.false_eq_true, if_false] at hs ⊢; omega
      · cases h
    · rename_i t v e hw
      cases h; rw [hw]; simp only [Out.isRemove, Out.isAdd, pendA, pendR, b2n_if]; simp only [b2n, Bool.false_eq_true, if_false]; omega
  | invoke t =>
    simp only [HookList.step] at h
    split at h
    · cases h
    split at h
    · cases h; simp only [Out.isRemove, Out.isAdd]; omega
    · cases h; simp only [Out.isRemove, Out.isAdd]; omega
  | read t =>
    have key : ∀ e i n out, (again s t e i n out) = (s', o) → cnt P s'.data + b2n (o.isRemove P) + pendR P s'.lock + pendA P s.lock =
        cnt P s.data + b2n (o.isAdd P) + pendA P s'.lock + pendR P s.lock := by
      intro e i n out hh
      obtain ⟨h1, h2, h3, -, h5⟩ := again_facts s t e i n out
      rw [hh] at h1 h2 h3 h5; dsimp only at h1 h2 h3 h5
      rw [h1, h3]
      have : o.isRemove P = false ∧ o.isAdd P = false := by
        rcases h5 with ⟨-, -, -, h6⟩ | ⟨-, -, h6⟩ <;> (rw [h6]; exact ⟨rfl, rfl⟩)
      rw [this.1, this.2]; omega
    simp only [HookList.step] at h
    split at h
    · cases h
    · exact key _ _ _ _ (Option.some.inj h)
    · split at h
      · cases h
      · split at h <;> exact key _ _ _ _ (Option.some.inj h)

theorem step_busy {s s' : St} {e : Ev} {o : Out} (h : step s e = some (s', o)) (v : Nat) :
    b2n (e.about v) + busy v s.lock = b2n (o.about v) + busy v s'.lock := by
  cases e with
  | add t w =>
    simp only [HookList.step] at h
    split at h
    · cases h; rfl
    split at h
    · cases h
    rename_i hv hl
    have hl : s.lock = none := by cases hh : s.lock <;> simp_all
    split at h
    · cases h; rfl
    · cases h; rw [hl]; simp [Ev.about, Out.about, busy, Writer.about, b2n]
  | remove t w =>
    simp only [HookList.step] at h
    split at h
    · cases h; rfl
    split at h
    · cases h
    rename_i hv hl
    have hl : s.lock = none := by cases hh : s.lock <;> simp_all
    split at h
    · cases h; rfl
    · cases h; rw [hl]; simp [Ev.about, Out.about, busy, Writer.about, b2n]
  | write =>
    simp only [HookList.step] at h
    split at h
    · cases h
    · rename_i hw
      split at h
      · split at h
        · cases h; rw [hw]; simp [Ev.about, Out.about, busy, Writer.about, b2n]
        · cases h; rw [hw]; simp [Ev.about, Out.about, busy, Writer.about, b2n]
      · cases h
    · rename_i hw
      cases h; rw [hw]; simp [Ev.about, Out.about, busy, Writer.about, b2n]
    · rename_i hw
      split at h
      · split at h
        · cases h; rw [hw]; simp [Ev.about, Out.about, busy, Writer.about, b2n]
        · cases h; rw [hw]; simp [Ev.about, Out.about, busy, Writer.about, b2n]
      · cases h
    · rename_i hw
      cases h; rw [hw]; simp [Ev.about, Out.about, busy, Writer.about, b2n]
  | invoke t =>
    simp only [HookList.step] at h
    split at h
    · cases h
    split at h
    · cases h; rfl
    · cases h; rfl
  | read t =>
    have key : ∀ e i n out, (again s t e i n out) = (s', o) → b2n ((Ev.read t).about v) + busy v s.lock = b2n (o.about v) + busy v s'.lock := by
      intro e i n out hh
      obtain ⟨h1, h2, h3, -, h5⟩ := again_facts s t e i n out
      rw [hh] at h1 h2 h3 h5; dsimp only at h1 h2 h3 h5
      rw [h3]
      have : o.about v = false := by
        rcases h5 with ⟨-, -, -, h6⟩ | ⟨-, -, h6⟩ <;> (rw [h6]; rfl)
      rw [this]; rfl
    simp only [HookList.step] at h
    split at h
    · cases h
    · exact key _ _ _ _ (Option.some.inj h)
    · split at h
      · cases h
      · split at h <;> exact key _ _ _ _ (Option.some.inj h)

theorem Exec.snoc {s s' s'' : St} {tr : List (Ev × Out)} (h : Exec s tr s') {e : Ev} {o : Out} (hs : step s' e = some (s'', o)) :
    Exec s (tr ++ [(e, o)]) s'' := by
  induction h with
  | nil => exact .cons hs (.nil _)
  | cons h _ ih => exact .cons h (ih hs)

/-- The list holds what was added and not removed. -/
theorem Exec.count {s0 s : St} {tr : List (Ev × Out)} (h : Exec s0 tr s) (I : Inv s0) (P : Nat → Bool) :
    cnt P s.data + removes P tr + pendR P s.lock + pendA P s0.lock = cnt P s0.data + adds P tr + pendA P s.lock + pendR P s0.lock := by
  induction h with
  | nil s => show _ + 0 + _ + _ = _ + 0 + _ + _; omega
  | @cons s s' s'' e o tr h _ ih =>
    have h1 := step_count I h P
    have h2 := ih (I.step h)
    have h3 : removes P ((e, o) :: tr) = removes P tr + b2n (o.isRemove P) := List.countP_cons
    have h4 : adds P ((e, o) :: tr) = adds P tr + b2n (o.isAdd P) := List.countP_cons
    omega

theorem Exec.busy {s0 s : St} {tr : List (Ev × Out)} (h : Exec s0 tr s) (v : Nat) :
    (tr.countP fun x => x.1.about v) + busy v s0.lock = (tr.countP fun x => x.2.about v) + busy v s.lock := by
  induction h with
  | nil s => rfl
  | @cons s s' s'' e o tr h _ ih =>
    have h1 := step_busy h v
    rw [List.countP_cons, List.countP_cons]
    simp only [b2n] at h1
    dsimp only
    omega

theorem Init.facts {f : List Nat} {s : St} (h : Init f s) (P : Nat → Bool) : cnt P s.data = f.countP P ∧ s.lock = none := by
  rcases h with ⟨rfl, rfl⟩ | ⟨h, hne, rfl, rfl⟩
  · exact ⟨rfl, rfl⟩
  · refine ⟨?_, rfl⟩
    show cnt P (h :: List.replicate 6 0) = _
    unfold cnt
    rw [List.countP_cons, List.countP_cons, bne_zero hne, Bool.true_and]
    rfl

/-! ### One traversal -/

/-- How often `v` is in the first `k` slots. -/
def upto (l : List Nat) (v k : Nat) : Nat := (List.range k).countP fun j => l.getD j 0 == v

theorem upto_succ (l : List Nat) (v k : Nat) : upto l v (k + 1) = upto l v k + b2n (l.getD k 0 == v) := by
  unfold upto
  rw [List.range_succ, List.countP_append, List.countP_singleton]; rfl

theorem upto_cnt (l : List Nat) {v : Nat} (hv : v ≠ 0) : upto l v l.length = cnt (· == v) l := by
  have h : ∀ k, k ≤ l.length → upto l v k = cnt (· == v) (l.take k) := by
    intro k
    induction k with
    | zero => intro _; rfl
    | succ k ih =>
      intro hk
      rw [upto_succ, ih (by omega), List.take_add_one, List.getD_eq_getElem?_getD, List.getElem?_eq_getElem (by omega)]
      unfold cnt
      simp only [Option.getD_some, Option.toList_some]
      rw [List.countP_append, List.countP_singleton]
      congr 1
      unfold b2n
      by_cases hh : l[k] = v
      · rw [hh]; simp [hv]
      · simp [hh]
  rw [h _ (Nat.le_refl _), List.take_length]

theorem upto_congr {l l' : List Nat} {v : Nat} (h : ∀ j, l'.getD j 0 = v ↔ l.getD j 0 = v) (k : Nat) : upto l' v k = upto l v k := by
  unfold upto
  apply List.countP_congr
  intro j _
  simp only [beq_iff_eq]
  exact h j

/-- No `v` from slot `e` on. -/
theorem upto_stop {l : List Nat} {v e : Nat} (h : ∀ j, l.getD j 0 = v → j < e) : ∀ k, e ≤ k → upto l v k = upto l v e := by
  intro k hk
  induction k with
  | zero => rw [Nat.le_zero.1 hk]
  | succ k ih =>
    by_cases he : e = k + 1
    · rw [he]
    · rw [upto_succ, ih (by omega)]
      have : (l.getD k 0 == v) = false := by
        rw [beq_eq_false_iff_ne]; intro hh; have := h k hh; omega
      rw [this]; rfl

/-- Thread `t` is on its way and has met every `v` so far. -/
def Seen (v : Nat) (s : St) : Option Reader → Prop
  | none => False
  | some .start => True
  | some (.loop e i _ out) => (∀ j, s.data.getD j 0 = v → j < e) ∧ out.count v = upto s.data v i

/-- Steps that are not about `v` leave the slots of `v` as they are. -/
theorem step_same {s s' : St} (I : Inv s) {e : Ev} {o : Out} (h : step s e = some (s', o)) {v : Nat} (hv : v ≠ 0)
    (hb : HookList.busy v s.lock = 0) : ∀ j, s'.data.getD j 0 = v ↔ s.data.getD j 0 = v := by
  cases e with
  | add t v =>
    simp only [HookList.step] at h
    split at h
    · cases h; exact fun _ => Iff.rfl
    split at h
    · cases h
    split at h <;> (cases h; exact fun _ => Iff.rfl)
  | remove t v =>
    simp only [HookList.step] at h
    split at h
    · cases h; exact fun _ => Iff.rfl
    split at h
    · cases h
    split at h <;> (cases h; exact fun _ => Iff.rfl)
  | write =>
    simp only [HookList.step] at h
    split at h
    · cases h
    · rename_i t w i e hw
      obtain ⟨h1, h2, h3, h4⟩ := I.writer _ hw
      have hne : w ≠ v := by
        intro hh; rw [hw] at hb; simp [HookList.busy, Writer.about, hh] at hb
      split at h
      · rename_i hi
        have : ∀ j, (s.data.set i w).getD j 0 = v ↔ s.data.getD j 0 = v := by
          intro j
          rw [getD_set hi]
          split
          · rename_i hj; rw [hj, h3]; exact ⟨fun hh => absurd hh hne, fun hh => absurd hh.symm hv⟩
          · exact Iff.rfl
        split at h <;> (cases h; exact this)
      · cases h
    · cases h; exact fun _ => Iff.rfl
    · rename_i t w i e hw
      obtain ⟨h1, h2, h3, h4⟩ := I.writer _ hw
      have hne : w ≠ v := by
        intro hh; rw [hw] at hb; simp [HookList.busy, Writer.about, hh] at hb
      split at h
      · rename_i hi
        have : ∀ j, (s.data.set i 0).getD j 0 = v ↔ s.data.getD j 0 = v := by
          intro j
          rw [getD_set hi]
          split
          · rename_i hj; rw [hj, h4]; exact ⟨fun hh => absurd hh.symm hv, fun hh => absurd hh hne⟩
          · exact Iff.rfl
        split at h <;> (cases h; exact this)
      · cases h
    · cases h; exact fun _ => Iff.rfl
  | invoke t =>
    simp only [HookList.step] at h
    split at h
    · cases h
    split at h <;> (cases h; exact fun _ => Iff.rfl)
  | read t =>
    have key : ∀ e i n out, (again s t e i n out) = (s', o) → ∀ j, s'.data.getD j 0 = v ↔ s.data.getD j 0 = v := by
      intro e i n out hh j
      obtain ⟨h1, -⟩ := again_facts s t e i n out
      rw [hh] at h1
      simp only at h1
      rw [h1]
    simp only [HookList.step] at h
    split at h
    · cases h
    · exact key _ _ _ _ (Option.some.inj h)
    · split at h
      · cases h
      · split at h <;> exact key _ _ _ _ (Option.some.inj h)

/-- If nobody is adding or removing `v`, all its slots are below `priv_end`. -/
theorem Inv.below {s : St} (I : Inv s) {v : Nat} (hv : v ≠ 0) (hb : HookList.busy v s.lock = 0) {j : Nat} (hj : s.data.getD j 0 = v) :
    j < s.tail := by
  rcases I.cover j (by rw [hj]; exact hv) with h | ⟨t, w, h⟩
  · exact h
  · have := I.writer _ h
    rw [h] at hb
    have hw : w = v := by rw [← hj]; exact this.2.2.1.symm
    simp [HookList.busy, Writer.about, hw] at hb

/-- Other threads leave this one's traversal alone. -/
theorem step_rd {s s' : St} {e : Ev} {o : Out} (h : step s e = some (s', o)) {t : Nat} (h1 : e ≠ .read t) (h2 : e ≠ .invoke t) :
    s'.rd t = s.rd t ∧ o.isCalled t = false := by
  cases e with
  | add u v =>
    simp only [HookList.step] at h
    split at h
    · cases h; exact ⟨rfl, rfl⟩
    split at h
    · cases h
    split at h <;> (cases h; exact ⟨rfl, rfl⟩)
  | remove u v =>
    simp only [HookList.step] at h
    split at h
    · cases h; exact ⟨rfl, rfl⟩
    split at h
    · cases h
    split at h <;> (cases h; exact ⟨rfl, rfl⟩)
  | write =>
    simp only [HookList.step] at h
    split at h
    · cases h
    · split at h
      · split at h <;> (cases h; exact ⟨rfl, rfl⟩)
      · cases h
    · cases h; exact ⟨rfl, rfl⟩
    · split at h
      · split at h <;> (cases h; exact ⟨rfl, rfl⟩)
      · cases h
    · cases h; exact ⟨rfl, rfl⟩
  | invoke u =>
    have hu : u ≠ t := fun hh => h2 (by rw [hh])
    simp only [HookList.step] at h
    split at h
    · cases h
    split at h
    · cases h; exact ⟨rfl, beq_eq_false_iff_ne.2 hu⟩
    · cases h
      refine ⟨?_, rfl⟩
      simp only [setRd]; rw [if_neg (fun hh => hu hh.symm)]
  | read u =>
    have hu : u ≠ t := fun hh => h1 (by rw [hh])
    have key : ∀ e i n out, (again s u e i n out) = (s', o) → s'.rd t = s.rd t ∧ o.isCalled t = false := by
      intro e i n out hh
      obtain ⟨-, -, -, g4, g5⟩ := again_facts s u e i n out
      rw [hh] at g4 g5; dsimp only at g4 g5
      refine ⟨g4 t fun hh => hu hh.symm, ?_⟩
      rcases g5 with ⟨-, -, -, h6⟩ | ⟨-, -, h6⟩
      · rw [h6]; rfl
      · rw [h6]; exact beq_eq_false_iff_ne.2 hu
    simp only [HookList.step] at h
    split at h
    · cases h
    · exact key _ _ _ _ (Option.some.inj h)
    · split at h
      · cases h
      · split at h <;> exact key _ _ _ _ (Option.some.inj h)

/-- A step of the thread itself. -/
theorem read_seen {s s' : St} (I : Inv s) {o : Out} {t v : Nat} (hv : v ≠ 0) (hb : HookList.busy v s.lock = 0)
    (hS : Seen v s (s.rd t)) (h : step s (.read t) = some (s', o)) :
    (o.isCalled t = false ∧ Seen v s' (s'.rd t)) ∨ ∃ l, o = .called t l ∧ l.count v = cnt (· == v) s.data := by
  have fin : ∀ e i n out, again s t e i n out = (s', o) → (∀ j, s.data.getD j 0 = v → j < e) → out.count v = upto s.data v i →
      e ≤ 7 → i ≤ 7 → (n = 0 → e ≤ i) →
      (o.isCalled t = false ∧ Seen v s' (s'.rd t)) ∨ ∃ l, o = .called t l ∧ l.count v = cnt (· == v) s.data := by
    intro e i n out hh hlt hc he hi hn
    obtain ⟨g1, -, -, -, g5⟩ := again_facts s t e i n out
    rw [hh] at g1 g5; dsimp only at g1 g5
    rcases g5 with ⟨-, -, g6, g7⟩ | ⟨g6, -, g7⟩
    · left
      refine ⟨by rw [g7]; rfl, ?_⟩
      rw [g6]
      exact ⟨by rw [g1]; exact hlt, by rw [g1]; exact hc⟩
    · right
      refine ⟨out, g7, ?_⟩
      have hei : e ≤ i := by rcases g6 with g6 | g6; exact g6; exact hn g6
      rw [hc, ← upto_cnt _ hv, I.len, upto_stop hlt i hei, upto_stop hlt 7 he]
  simp only [HookList.step] at h
  split at h
  · cases h
  · refine fin _ _ _ _ (Option.some.inj h) (fun j hj => I.below hv hb hj) rfl I.tail (by omega) (fun hh => (by cases hh))
  · rename_i e i n out hr
    rw [hr] at hS
    obtain ⟨c1, c2⟩ := hS
    obtain ⟨g1, g2, g3, g4, g5, -⟩ := I.reader _ _ hr
    split at h
    · cases h
    · rename_i d hd
      have hg : s.data.getD i 0 = d := by rw [List.getD_eq_getElem?_getD, hd]; rfl
      split at h
      · rename_i hd0
        refine fin _ _ _ _ (Option.some.inj h) c1 ?_ g2 (by omega) (by omega)
        rw [List.count_append, List.count_singleton, c2, upto_succ, hg]; rfl
      · rename_i hd0
        have hd0 : d = 0 := Classical.not_not.1 hd0
        refine fin _ _ _ _ (Option.some.inj h) c1 ?_ g2 (by omega) (by omega)
        rw [c2, upto_succ, hg, hd0]
        have : (0 == v) = false := beq_eq_false_iff_ne.2 fun hh => hv hh.symm
        rw [this]; rfl

end Verif.HookList
