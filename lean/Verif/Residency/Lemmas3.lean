import Verif.Residency.Lemmas2
/-! Helper lemmas: `PageFlags::Get` and `GetSinglePageBitmaps`. -/
namespace Verif.Residency
open Verif.Bitmap (Word bitAt WF)
open Spec

theorem Good.lift {α : Type} {A B : Prop} {r : Out α} {Q : α → Prop} (h : Good A r Q) :
    Good (A ∧ B) r Q := by
  cases r with
  | ub => exact h
  | fail => exact fun x => h x.1
  | ok a => exact h

/-- What `PageFlags::Get` must return. -/
structure Answer (P K scan : Nat) (f : Nat → Word) (addr size : Nat) (s : Stats) : Prop where
  stale : s.stale = bytesOn P (Stale K f) addr size
  locked : s.locked = bytesOn P (Locked K f) addr size
  scan : s.scanSeconds = if 0 < bytesOn P (Stale K f) addr size then scan else 0

theorem withScan_answer {P K scan : Nat} {f : Nat → Word} {addr size : Nat} {s : Stats}
    (h : StatsOf (bytesOn P (Stale K f) addr size) (bytesOn P (Locked K f) addr size) s) :
    Answer P K scan f addr size (withScan scan s) := by
  unfold withScan
  obtain ⟨h1, h2, h3⟩ := h
  by_cases e : 0 < s.stale
  · rw [if_pos e]
    exact ⟨h1, h2, by rw [← h1, if_pos e]⟩
  · rw [if_neg e]
    exact ⟨h1, h2, by rw [← h1, if_neg e, h3]⟩

theorem stats_zero : StatsOf 0 0 {} := ⟨rfl, rfl, rfl⟩

/-- The bytes from `addr` to a later page `q`, all owned by the first page's owner. -/
theorem first_part {P K : Nat} {f : Nat → Word} {addr n : Nat} {w : Word}
    (h : ∀ k, k < n → f (owner K f ((addr + k) / P)) = w) :
    StatsOf (bytesOn P (Stale K f) addr n) (bytesOn P (Locked K f) addr n) (addToStats {} w n) := by
  have := addToStats_of stats_zero w n
  simp only [Nat.zero_add] at this
  rw [bytesOn_const P (Stale K f) addr n (w.getLsbD 44) (fun k hk => by unfold Stale; rw [h k hk]),
    bytesOn_const P (Locked K f) addr n (w.getLsbD 33 || w.getLsbD 18)
      (fun k hk => by unfold Locked; rw [h k hk])]
  exact this

theorem not_tail_of_aligned {K : Nat} {f : Nat → Word} (c : Compound K f) {q : Nat}
    (hq : q / K * K = q) : Tail f q = false := by
  cases h : Tail f q
  · rfl
  · have := c.tail q h
    rw [hq] at this
    rw [c.excl q this] at h
    exact absurd h (by decide)

theorem not_tail_next {K : Nat} {f : Nat → Word} (hK : 0 < K) (c : Compound K f) {p : Nat}
    (h1 : Head f p = false) (h2 : Tail f p = false) : Tail f (p + 1) = false := by
  cases h : Tail f (p + 1)
  · rfl
  · exfalso
    have hh := c.tail _ h
    by_cases e : (p + 1) / K = p / K
    · rw [e] at hh
      have hx2 : p = p / K * K + p % K := by
        have := Nat.div_add_mod p K
        rw [Nat.mul_comm] at this; omega
      by_cases z : p % K = 0
      · have : p / K * K = p := by omega
        rw [this, h1] at hh
        exact absurd hh (by decide)
      · have := (c.head _ hh).2 (p % K) (Nat.pos_of_ne_zero z) (Nat.mod_lt _ hK)
        rw [← hx2, h2] at this
        exact absurd this (by decide)
    · have : (p + 1) / K * K = p + 1 := by
        have l1 : p / K < (p + 1) / K := by
          have := Nat.div_le_div_right (c := K) (show p ≤ p + 1 by omega); omega
        have l2 : p < (p + 1) / K * K := by
          have := Nat.lt_div_mul_add (a := p) hK
          have : (p / K + 1) * K ≤ (p + 1) / K * K := Nat.mul_le_mul_right _ l1
          rw [Nat.add_mul] at this; omega
        have := Nat.div_mul_le_self (p + 1) K
        omega
      have := not_tail_of_aligned c this
      rw [h] at this; exact absurd this (by decide)

theorem split3 {P addr size l T U V : Nat} (hP : 0 < P) (g : Nat → Bool) (ha : addr ≤ V)
    (he1 : T - P < addr + size) (he2 : addr + size ≤ T) (e2 : T = l * P + P) (e3 : V + U = l * P) :
    bytesOn P g addr size = bytesOn P g addr (V - addr) + bytesOn P g V U +
      (if g l then P - (T - addr - size) else 0) := by
  have hsz : size = (V - addr) + (U + (P - (T - addr - size))) := by omega
  have e4 : addr + (V - addr) = V := by omega
  calc bytesOn P g addr size
      = bytesOn P g addr ((V - addr) + (U + (P - (T - addr - size)))) := by rw [← hsz]
    _ = bytesOn P g addr (V - addr) + (bytesOn P g V U + bytesOn P g (l * P) (P - (T - addr - size))) := by
        rw [bytesOn_add, bytesOn_add, e4, e3]
    _ = _ := by
        rw [bytes_one hP g (addr := l * P) (p := l) (o := 0) (by omega)
          (by rw [Nat.add_mul]; omega), Nat.add_assoc]

/-- What `Get` still has to do from page `q` on. -/
theorem tail_good {P K : Nat} (hP : 0 < P) (hK : 0 < K) (scan : Nat) (F : File)
    (c : Compound K F.entry) {addr size p n q : Nat} (_hq1 : p < q) (hq2 : q < p + n)
    (ha : addr ≤ q * P) (he1 : (p + n) * P - P < addr + size) (he2 : addr + size ≤ (p + n) * P)
    (hq : Tail F.entry q = false) {fd : Fd} (hfd : fd.pos = q) {s : Stats}
    (hs : StatsOf (bytesOn P (Stale K F.entry) addr (q * P - addr))
      (bytesOn P (Locked K F.entry) addr (q * P - addr)) s) :
    Good (F.AllOk ∧ AllThp F.entry)
      (do
        let x ← flagsMany P F fd (p + n - q - 1) noHead s
        let y ← maybeReadOne P (K * P) F x.2.2 ((p + n) * P - P)
        pure (withScan scan (addToStats x.1 y.1 (P - ((p + n) * P - addr - size)))))
      (Answer P K scan F.entry addr size) := by
  have last0 : LastOk K F.entry q noHead := fun h => by rw [hq] at h; exact absurd h (by decide)
  refine Good.bind (Good.lift (flagsMany_good hP hK F c (p + n - q - 1) q fd noHead s _ _ hfd last0 hs)) ?_
  intro x ax
  obtain ⟨l, hl⟩ : ∃ l, p + n = l + 1 := ⟨p + n - 1, by omega⟩
  have e1 : (p + n) * P - P = l * P := by rw [hl, Nat.add_mul]; omega
  rw [e1]
  refine Good.bind (maybeReadOne_good hP F c x.2.2 l) ?_
  rintro ⟨w, hg, fd2⟩ ⟨w1, _, _⟩
  simp only at w1 ⊢
  apply withScan_answer
  have := addToStats_of ax w (P - ((p + n) * P - addr - size))
  rw [w1] at this
  have e2 : (p + n) * P = l * P + P := by rw [hl, Nat.add_mul]; omega
  have e3 : q * P + (p + n - q - 1) * P = l * P := by rw [← Nat.add_mul]; congr 1; omega
  have dec : ∀ g : Nat → Bool, bytesOn P g addr size = bytesOn P g addr (q * P - addr) +
      bytesOn P g (q * P) ((p + n - q - 1) * P) +
      (if g l then P - ((p + n) * P - addr - size) else 0) := by
    intro g
    exact split3 hP g ha he1 he2 e2 e3
  rw [dec, dec]
  rw [w1]
  exact this

theorem flagsGet_good {P K : Nat} (hP : 0 < P) (hK : 0 < K) (scan : Nat) (F : File)
    (c : Compound K F.entry) (fd : Fd) (addr size : Nat) :
    Good (F.AllOk ∧ AllThp F.entry) (flagsGet P (K * P) scan F fd addr size)
      (Answer P K scan F.entry addr size) := by
  unfold flagsGet
  split
  · rename_i e; subst e; exact ⟨rfl, rfl, rfl⟩
  · rename_i hs
    obtain ⟨p, o, h1, h2, h3, n, h4, h5, h6, h7, h8⟩ := geom (addr := addr) hP (Nat.pos_of_ne_zero hs)
    simp only
    rw [h8, h3, h5]
    have hdivk : ∀ k, o + k < P → (addr + k) / P = p := by
      intro k hk
      exact div_in hP (by omega) (by rw [Nat.add_mul]; omega)
    split
    · rename_i e
      subst e
      refine Good.bind (maybeReadOne_good hP F c fd p) ?_
      rintro ⟨w, hg, fd2⟩ ⟨w1, _, _⟩
      simp only at w1 ⊢
      apply withScan_answer
      rw [w1]
      apply first_part
      intro k hk
      rw [hdivk k (by rw [Nat.add_mul] at h7; omega)]
    · rename_i hn
      refine Good.bind (maybeReadOne_good hP F c fd p) ?_
      rintro ⟨w, hg, fd2⟩ ⟨w1, w2, w3⟩
      simp only at w1 w2 w3 ⊢
      have rep : K * P / P - p * P % (K * P) / P = K - p % K := by
        rw [Nat.mul_div_cancel _ hP, Nat.mul_mod_mul_right, Nat.mul_div_cancel _ hP]
      rw [rep]
      have hpk : p = p / K * K + p % K := by
        have := Nat.div_add_mod p K
        rw [Nat.mul_comm] at this; omega
      have hml := Nat.mod_lt p hK
      -- a byte before the end of the hugepage has the same owner
      have same : hg = true → ∀ k, addr + k < (p / K * K + K) * P →
          F.entry (owner K F.entry ((addr + k) / P)) = w := by
        intro hh k hk
        rw [w1]
        have hx : Head F.entry p = true ∨ Tail F.entry p = true := by
          rw [w2] at hh; exact Bool.or_eq_true_iff.1 hh
        have lo : p ≤ (addr + k) / P := by rw [Nat.le_div_iff_mul_le hP]; omega
        have hi : (addr + k) / P < p / K * K + K := by rw [Nat.div_lt_iff_lt_mul hP]; exact hk
        have hdiv : (addr + k) / P / K = p / K :=
          Nat.div_eq_of_lt_le (by omega) (by rw [Nat.add_mul]; omega)
        obtain ⟨o1, o2⟩ := owner_same hK c hx hdiv
        rw [o1, o2]
      have ho : P - (addr - p * P) = P - o := by omega
      rw [ho]
      have o3 : (p + n) * P = p * P + n * P := Nat.add_mul _ _ _
      split
      · rename_i hc
        rw [Bool.and_eq_true_iff, decide_eq_true_iff] at hc
        apply withScan_answer
        apply first_part
        intro k hk
        apply same hc.1 k
        have : (p + n) * P ≤ (p / K * K + K) * P := Nat.mul_le_mul_right _ (by omega)
        omega
      · rename_i hc
        unfold afterFirst
        cases hg with
        | true =>
          have hc : K - p % K < n := by
            simp only [Bool.true_and, decide_eq_true_iff] at hc; omega
          simp only [if_true]
          refine Good.bind (Q := fun x => x.1 = addToStats {} w (P - o + (K - p % K - 1) * P) ∧
            x.2.1 = n - (K - p % K) ∧ x.2.2.pos = p / K * K + K) ?_ ?_
          · refine Good.bind (Good.lift (seek_good P F fd2 _)) ?_
            intro fd3 f3
            refine ⟨rfl, rfl, ?_⟩
            simp only
            rw [f3]
            have : p * P / (K * P) * (K * P) + K * P = (p / K * K + K) * P := by
              rw [Nat.mul_div_mul_right _ _ hP, ← Nat.mul_assoc, ← Nat.add_mul]
            rw [this, Nat.mul_div_cancel _ hP]
          · rintro ⟨s, r, fd3⟩ ⟨s1, r1, f1⟩
            simp only at s1 r1 f1 ⊢
            have hq1 : p < p / K * K + K := by omega
            have ha : addr ≤ (p / K * K + K) * P := by
              have : (p + 1) * P ≤ (p / K * K + K) * P := Nat.mul_le_mul_right _ hq1
              rw [Nat.add_mul] at this; omega
            have hd : P - o + (K - p % K - 1) * P = (p / K * K + K) * P - addr := by
              have e1 : (p / K * K + K) * P = p * P + (K - p % K - 1) * P + P := by
                have : p / K * K + K = p + (K - p % K - 1) + 1 := by omega
                rw [this]; simp only [Nat.add_mul]; omega
              omega
            have key := tail_good hP hK scan F c (addr := addr) (size := size) (p := p) (n := n)
              (q := p / K * K + K) hq1 (by omega) ha h6 h7
              (not_tail_of_aligned c (by
                have : (p / K * K + K) / K = p / K + 1 := by
                  rw [Nat.add_div_right _ hK, Nat.mul_div_cancel _ hK]
                rw [this, Nat.add_mul]; omega))
              (fd := fd3) f1 (s := s) (by
                rw [s1, hd]
                apply first_part
                intro k hk
                exact same rfl k (by omega))
            have er : r - 1 = p + n - (p / K * K + K) - 1 := by omega
            rw [er]
            exact key
        | false =>
          have hHT : Head F.entry p = false ∧ Tail F.entry p = false := by
            have := w2.symm
            rw [Bool.or_eq_false_iff] at this; exact this
          simp only [Bool.false_eq_true, if_false, bind_ok]
          have key := tail_good hP hK scan F c (addr := addr) (size := size) (p := p) (n := n)
              (q := p + 1) (by omega) (by omega) (by rw [Nat.add_mul]; omega) h6 h7
              (not_tail_next hK c hHT.1 hHT.2) (fd := fd2) (w3 rfl)
              (s := addToStats {} w (P - o)) (by
                have e1 : (p + 1) * P - addr = P - o := by rw [Nat.add_mul]; omega
                rw [e1]
                apply first_part
                intro k hk
                rw [hdivk k (by omega), w1])
          have er : n - 1 - 1 = p + n - (p + 1) - 1 := by omega
          rw [er]
          exact key

/-! ### `GetSinglePageBitmaps` -/

theorem setRange_ok {N : Nat} {b : List Word} (h : WF N b) {i n : Nat} (hn : 0 < n) (hi : i + n ≤ N) :
    ∃ b', setRange N b i n = .ok b' ∧ WF N b' ∧
      ∀ j, bitAt b' j = if i ≤ j ∧ j < i + n then true else bitAt b j := by
  obtain ⟨b', h1, h2, h3⟩ := Bitmap.setRange_exact true N b h i n hn hi
  exact ⟨b', by simp [setRange, h1], h2, h3⟩

/-- `b` holds the stale pages before `i`, except those of the open run. -/
structure Runs (K : Nat) (f : Nat → Word) (p i : Nat) (start : Option Nat) (b : List Word) : Prop where
  wf : WF kMaxResidencyBits b
  le : start.getD i ≤ i
  lt : ∀ st, start = some st → st < i
  bits : ∀ j, bitAt b j = (decide (j < start.getD i) && Stale K f (p + j))
  open_ : ∀ j, start.getD i ≤ j → j < i → Stale K f (p + j) = true

theorem Runs.close {K : Nat} {f : Nat → Word} {p i st : Nat} {b : List Word}
    (h : Runs K f p i (some st) b) (hi : i ≤ kMaxResidencyBits) :
    ∃ b', setRange kMaxResidencyBits b st (i - st) = .ok b' ∧ Runs K f p i none b' := by
  have hlt := h.lt st rfl
  obtain ⟨b', h1, h2, h3⟩ := setRange_ok h.wf (i := st) (n := i - st) (by omega) (by omega)
  refine ⟨b', h1, ⟨h2, Nat.le_refl _, (by intro _ hx; cases hx), fun j => ?_, (fun j a b => ?_)⟩⟩
  · rw [h3, h.bits]
    simp only [Option.getD_some, Option.getD_none]
    by_cases e : st ≤ j ∧ j < st + (i - st)
    · rw [if_pos e, h.open_ j e.1 (by omega)]
      simp; omega
    · rw [if_neg e]
      have : decide (j < st) = decide (j < i) := by apply decide_eq_decide.2; omega
      rw [this]
  · simp only [Option.getD_none] at a; omega

theorem staleRuns_good {A : Prop} {K : Nat} (hK : 0 < K) {f : Nat → Word} (c : Compound K f) {p : Nat} :
    ∀ (k i : Nat) (last : Word) (start : Option Nat) (b : List Word), i + k ≤ kMaxResidencyBits →
      LastOk K f (p + i) last → Runs K f p i start b →
      Good A (staleRuns ((List.range k).map (fun j => f (p + i + j))) i last start b)
        (Runs K f p (i + k) none)
  | 0, i, last, start, b, hi, hl, h => by
    simp only [List.range_zero, List.map_nil, Nat.add_zero]
    unfold staleRuns
    cases start with
    | none => exact h
    | some st =>
      obtain ⟨b', h1, h2⟩ := h.close hi
      simp only [h1]
      exact h2
  | k + 1, i, last, start, b, hi, hl, h => by
    rw [List.range_succ_eq_map, List.map_cons, List.map_map]
    have e : (List.range k).map ((fun j => f (p + i + j)) ∘ Nat.succ) =
        (List.range k).map (fun j => f (p + (i + 1) + j)) := by
      apply List.map_congr_left
      intro j _
      simp only [Function.comp]
      congr 1; omega
    rw [e]
    have hn : LastOk K f (p + (i + 1)) (if Head f (p + i) then f (p + i) else last) :=
      lastOk_next hK c hl
    have own : (if Tail f (p + i) then (if Head f (p + i) then f (p + i) else last) else f (p + i)) =
        f (owner K f (p + i)) := by
      unfold owner
      split
      · rename_i ht
        have : Head f (p + i) = false := by
          cases hx : Head f (p + i)
          · rfl
          · rw [c.excl _ hx] at ht; exact absurd ht (by decide)
        rw [this]
        simp only [Bool.false_eq_true, if_false]
        exact hl ht
      · rfl
    have i1 : i + (k + 1) = i + 1 + k := by omega
    rw [i1]
    unfold staleRuns
    simp only [Nat.add_zero]
    rw [pageHead_eq, pageTail_eq]
    have hH : (f (p + i)).getLsbD 15 = Head f (p + i) := rfl
    have hT : (f (p + i)).getLsbD 16 = Tail f (p + i) := rfl
    rw [hH, hT]
    generalize (if Head f (p + i) = true then f (p + i) else last) = last' at *
    split
    · rename_i hc
      exfalso
      rw [Bool.and_eq_true_iff, beq_iff_eq] at hc
      rw [if_pos hc.1, hc.2] at own
      have : owner K f (p + i) = (p + i) / K * K := by unfold owner; rw [if_pos hc.1]
      rw [this] at own
      exact head_ne_noHead c (c.tail _ hc.1) own.symm
    · rw [own, pageStale_eq]
      have hS : (f (owner K f (p + i))).getLsbD 44 = Stale K f (p + i) := rfl
      rw [hS]
      split
      · rename_i hst
        apply staleRuns_good hK c k (i + 1) _ _ _ (by omega) hn
        refine ⟨h.wf, ?_, ?_, ?_, ?_⟩
        · have := h.le; simp only [Option.getD_some]; omega
        · intro st hx
          cases hx
          have := h.le; omega
        · intro j
          simp only [Option.getD_some]
          exact h.bits j
        · intro j a1 a2
          simp only [Option.getD_some] at a1
          by_cases ej : j = i
          · subst ej; exact hst
          · exact h.open_ j a1 (by omega)
      · rename_i hst
        have hst := Bool.eq_false_iff.2 hst
        have next : ∀ b', Runs K f p i none b' → Runs K f p (i + 1) none b' := by
          intro b' h'
          refine ⟨h'.wf, Nat.le_refl _, (by intro _ hx; cases hx), fun j => ?_, fun j a1 a2 => ?_⟩
          · rw [h'.bits]
            simp only [Option.getD_none]
            by_cases ej : j = i
            · subst ej; simp [hst]
            · have : decide (j < i + 1) = decide (j < i) := by apply decide_eq_decide.2; omega
              rw [this]
          · simp only [Option.getD_none] at a1; omega
        cases start with
        | none => exact staleRuns_good hK c k (i + 1) _ _ _ (by omega) hn (next b h)
        | some st =>
          obtain ⟨b', h1, h2⟩ := h.close (by omega)
          simp only [h1, bind_ok]
          exact staleRuns_good hK c k (i + 1) _ _ _ (by omega) hn (next b' h2)

theorem staleBitmap_good {P K : Nat} (hP : 0 < P) (hK : 0 < K) (hK2 : K ≤ kMaxResidencyBits) (F : File)
    (c : Compound K F.entry) (fd : Fd) (hp : Nat) :
    Good F.AllOk (staleBitmap P (K * P) F fd (hp * (K * P))) (Runs K F.entry (hp * K) K none) := by
  unfold staleBitmap
  rw [Nat.mul_mod_left]
  simp only [ne_eq, not_true_eq_false, if_false]
  refine Good.bind (seek_good P F fd _) ?_
  intro fd1 f1
  rw [← Nat.mul_assoc, Nat.mul_div_cancel _ hP] at f1
  rw [Nat.mul_div_cancel _ hP]
  refine Good.bind (read_good F fd1 K hK2) ?_
  rintro ⟨buf, fd2⟩ ⟨b1, _⟩
  simp only at b1 ⊢
  rw [b1, f1]
  have := staleRuns_good (A := F.AllOk) hK c (p := hp * K) K 0 noHead none
    (Bitmap.empty kMaxResidencyBits) (by omega)
    (fun ht => by
      have := not_tail_of_aligned c (q := hp * K) (by rw [Nat.mul_div_cancel _ hK])
      rw [Nat.add_zero, this] at ht; exact absurd ht (by decide))
    ⟨Bitmap.wf_empty _, Nat.le_refl _, (by intro _ hx; cases hx), fun j => by simp [Bitmap.bitAt_empty],
      fun j a1 a2 => by omega⟩
  simp only [Nat.add_zero, Nat.zero_add] at this
  exact this

end Verif.Residency
