import Verif.Residency.Lemmas
/-! Helper lemmas: the bitmaps of a hugepage, `MInCore` and `PageFlags`. -/
namespace Verif.Residency
open Verif.Bitmap (Word bitAt WF)
open Spec

/-! ### `GetUnbackedAndSwappedBitmaps` -/

/-- The bitmaps after the first `m` pages from page `p`. -/
structure PairOf (pm : Nat → Word) (p m : Nat) (r : Pair) : Prop where
  wu : WF kMaxResidencyBits r.unbacked
  ws : WF kMaxResidencyBits r.swapped
  unbacked : ∀ j, bitAt r.unbacked j =
    (decide (j < m) && !Present pm (p + j) && !Swapped pm (p + j))
  swapped : ∀ j, bitAt r.swapped j =
    (decide (j < m) && !Present pm (p + j) && Swapped pm (p + j))

theorem classifyOne_good {A : Prop} {pm : Nat → Word} {p m : Nat} {r : Pair} (h : PairOf pm p m r)
    (hm : m < kMaxResidencyBits) :
    Good A (classifyOne (pm (p + m)) m r) (PairOf pm p (m + 1)) := by
  have hP : (pm (p + m)).getLsbD 63 = Present pm (p + m) := rfl
  have hS : (pm (p + m)).getLsbD 62 = Swapped pm (p + m) := rfl
  have lt : ∀ j, j ≠ m → decide (j < m + 1) = decide (j < m) := by
    intro j hj; apply decide_eq_decide.2; omega
  unfold classifyOne
  rw [pagePresent_eq, pageSwapped_eq, hP, hS]
  split
  · rename_i hp
    refine ⟨h.wu, h.ws, fun j => ?_, fun j => ?_⟩
    · rw [h.unbacked]; by_cases e : j = m
      · subst e; simp [hp]
      · rw [lt j e]
    · rw [h.swapped]; by_cases e : j = m
      · subst e; simp [hp]
      · rw [lt j e]
  · rename_i hp
    have hp := Bool.eq_false_iff.2 hp
    split
    · rename_i hs
      obtain ⟨b, b1, b2, b3⟩ := setBit_ok h.ws hm
      rw [b1]
      refine ⟨h.wu, b2, fun j => ?_, fun j => ?_⟩
      · simp only; rw [h.unbacked]; by_cases e : j = m
        · subst e; simp [hp, hs]
        · rw [lt j e]
      · simp only; rw [b3, h.swapped]; by_cases e : j = m
        · subst e; simp [hp, hs]
        · rw [lt j e, if_neg e]
    · rename_i hs
      have hs := Bool.eq_false_iff.2 hs
      obtain ⟨b, b1, b2, b3⟩ := setBit_ok h.wu hm
      rw [b1]
      refine ⟨b2, h.ws, fun j => ?_, fun j => ?_⟩
      · simp only; rw [b3, h.unbacked]; by_cases e : j = m
        · subst e; simp [hp, hs]
        · rw [lt j e, if_neg e]
      · simp only; rw [h.swapped]; by_cases e : j = m
        · subst e; simp [hp, hs]
        · rw [lt j e]

theorem classify_good {A : Prop} {pm : Nat → Word} {p : Nat} : ∀ (k m : Nat) (r : Pair),
    m + k ≤ kMaxResidencyBits → PairOf pm p m r →
      Good A (classify ((List.range k).map (fun i => pm (p + m + i))) m r) (PairOf pm p (m + k))
  | 0, m, r, _, h => h
  | k + 1, m, r, hm, h => by
    rw [List.range_succ_eq_map, List.map_cons, List.map_map]
    unfold classify
    refine Good.bind (classifyOne_good h (by omega)) ?_
    intro r' a
    have e : (List.range k).map ((fun i => pm (p + m + i)) ∘ Nat.succ) =
        (List.range k).map (fun i => pm (p + (m + 1) + i)) := by
      apply List.map_congr_left
      intro i _
      simp only [Function.comp]
      congr 1; omega
    rw [e]
    have e2 : m + (k + 1) = m + 1 + k := by omega
    rw [e2]
    exact classify_good k (m + 1) r' (by omega) a

theorem getBitmaps_good {P K : Nat} (hP : 0 < P) (hK : 0 < K) (hK2 : K ≤ kMaxResidencyBits) (F : File)
    (fd : Fd) (hp : Nat) :
    Good F.AllOk (getBitmaps P (K * P) F fd (hp * (K * P)))
      (fun x => PairOf F.entry (hp * K) K x.1) := by
  unfold getBitmaps
  rw [Nat.mul_div_cancel _ (Nat.mul_pos hK hP)]
  simp only [ne_eq, not_true_eq_false, if_false]
  refine Good.bind (seek_good P F fd _) ?_
  intro fd1 f1
  rw [← Nat.mul_assoc, Nat.mul_div_cancel _ hP] at f1
  rw [Nat.mul_div_cancel _ hP]
  refine Good.bind (read_good F fd1 K hK2) ?_
  rintro ⟨buf, fd2⟩ ⟨b1, _⟩
  simp only at b1 ⊢
  rw [b1, f1]
  have := classify_good (A := F.AllOk) (pm := F.entry) (p := hp * K) K 0 {} (by omega)
    ⟨Bitmap.wf_empty _, Bitmap.wf_empty _, fun j => by simp [Bitmap.bitAt_empty],
      fun j => by simp [Bitmap.bitAt_empty]⟩
  simp only [Nat.add_zero, Nat.zero_add] at this
  refine Good.bind this ?_
  intro r a
  exact a

/-! ### `MInCore` -/

def Core.AllOk (C : Core) : Prop := ∀ n, C.ok n = true

/-- The array holds the bytes of the pages from `c` on. -/
def ResOf (C : Core) (c L : Nat) : List Word := (List.range L).map (fun i => C.vec (c + i))

theorem bit0 (w : Word) : (w &&& 1#64 == 1#64) = w.getLsbD 0 := testBit_iff w 0 (by omega)

theorem kArr : 4 ≤ kArrayLength := by decide

theorem ar1 {N k : Nat} (h : 4 ≤ N) : 0 < min (k + 1) N := by omega
theorem ar2 {N k : Nat} : min N (0 + (k + 1)) ≤ min (k + 1) N := by omega
theorem ar3 {N m : Nat} (h : 4 ≤ N) : 1 < min (m + 2) N := by omega
theorem ar4 {N m : Nat} : min N (1 + (m + 1)) ≤ min (m + 2) N := by omega

theorem resBit_ok {C : Core} {c L i : Nat} (hi : i < L) :
    resBit (ResOf C c L) i = .ok (InCore C.vec (c + i)) := by
  unfold resBit ResOf
  simp only [List.getElem?_map, List.getElem?_range hi, Option.map_some, bit0]
  rfl

theorem mincore_good {P : Nat} (hP : 0 < P) (C : Core) (n b k : Nat) :
    Good C.AllOk (mincore P C n (b * P) (min (k * P) (P * kArrayLength)))
      (fun res => res = ResOf C b (min k kArrayLength)) := by
  have e : min (k * P) (P * kArrayLength) / P = min k kArrayLength := by
    rw [Nat.mul_comm P, Nat.mul_min_mul_right, Nat.mul_div_cancel _ hP]
  unfold mincore
  rw [e, if_pos (Nat.min_le_right _ _), Nat.mul_div_cancel _ hP]
  split
  · rfl
  · rename_i h; intro a; exact h (a _)

theorem coreLoop_good {P : Nat} (hP : 0 < P) (C : Core) :
    ∀ (k n b c L i total : Nat), c + i = b → i < L → min kArrayLength (i + (k + 1)) ≤ L →
      L ≤ kArrayLength →
      Good C.AllOk (coreLoop P C n (b * P) ((k + 1) * P) (ResOf C c L) i total)
        (fun x => x.1 = total + bytesOn P (InCore C.vec) (b * P) (k * P) ∧
          resBit x.2.2 x.2.1 = .ok (InCore C.vec (b + k)))
  | 0, n, b, c, L, i, total, h1, h2, h3, h4 => by
    rw [coreLoop, dif_neg (by omega)]
    simp only [Nat.zero_mul, bytesOn_zero, Nat.add_zero]
    exact ⟨rfl, by rw [← h1]; exact resBit_ok h2⟩
  | k + 1, n, b, c, L, i, total, h1, h2, h3, h4 => by
    have x1 : (k + 1 + 1) * P = k * P + P + P := by simp only [Nat.add_mul]; omega
    have x2 : (k + 1) * P = k * P + P := by simp only [Nat.add_mul]; omega
    rw [coreLoop, dif_pos ⟨hP, by omega⟩, resBit_ok h2, bind_ok, h1]
    simp only
    have x3 : b * P + P = (b + 1) * P := by simp only [Nat.add_mul]; omega
    have x4 : (k + 1 + 1) * P - P = (k + 1) * P := by omega
    rw [x3, x4, bytesOn_succ hP]
    have tot : (if InCore C.vec b = true then total + P else total) =
        total + (if InCore C.vec b = true then P else 0) := by split <;> rfl
    rw [tot]
    have fin : ∀ x : Nat × Nat × List Word,
        (x.1 = total + (if InCore C.vec b = true then P else 0) +
            bytesOn P (InCore C.vec) ((b + 1) * P) (k * P) ∧
          resBit x.2.2 x.2.1 = .ok (InCore C.vec (b + 1 + k))) →
        x.1 = total + ((if InCore C.vec b = true then P else 0) +
            bytesOn P (InCore C.vec) ((b + 1) * P) (k * P)) ∧
          resBit x.2.2 x.2.1 = .ok (InCore C.vec (b + (k + 1))) := by
      rintro x ⟨a1, a2⟩
      refine ⟨by omega, ?_⟩
      have : b + (k + 1) = b + 1 + k := by omega
      rw [this]; exact a2
    split
    · rename_i hi
      refine Good.bind (mincore_good hP C n (b + 1) (k + 1)) ?_
      intro res hres
      subst hres
      refine Good.mono (coreLoop_good hP C k (n + 1) (b + 1) (b + 1) (min (k + 1) kArrayLength) 0 _ rfl
        (ar1 kArr) ar2
        (Nat.min_le_right _ _)) fin
    · rename_i hi
      refine Good.mono (coreLoop_good hP C k n (b + 1) c L (i + 1) _ (by omega) ?_ ?_ h4) fin
      · have := kArr; omega
      · have := kArr; omega

theorem residenceImpl_good {P : Nat} (hP : 0 < P) (C : Core) (addr size : Nat) :
    Good C.AllOk (residenceImpl P C addr size)
      (fun r => r = bytesOn P (InCore C.vec) addr size) := by
  unfold residenceImpl
  split
  · rename_i e; subst e; rfl
  · rename_i hs
    obtain ⟨p, o, h1, h2, h3, n, h4, h5, h6, h7, h8⟩ := geom (addr := addr) hP (Nat.pos_of_ne_zero hs)
    simp only
    rw [h3, h5]
    have hr : (p + n) * P - p * P = n * P := by rw [← Nat.sub_mul]; congr 1; omega
    rw [hr]
    split
    · rename_i e
      have n1 : n = 1 := Nat.eq_of_mul_eq_mul_right hP (by omega)
      subst n1
      have := mincore_good hP C 0 p 1
      rw [show min (1 * P) (P * kArrayLength) = 1 * P by
        have : P * 4 ≤ P * kArrayLength := Nat.mul_le_mul_left _ kArr
        omega] at this
      refine Good.bind this ?_
      intro res hres
      subst hres
      rw [resBit_ok (ar1 (k := 0) kArr), bind_ok, bytes_one hP _ h1 h7]
      rfl
    · rename_i e
      obtain ⟨m, rfl⟩ : ∃ m, n = m + 2 :=
        ⟨n - 2, by have : n ≠ 1 := fun x => e (by subst x; omega)
                   omega⟩
      refine Good.bind (mincore_good hP C 0 p (m + 2)) ?_
      intro res hres
      subst hres
      rw [resBit_ok (ar1 (k := m + 1) kArr), bind_ok]
      have x1 : p * P + P = (p + 1) * P := by simp only [Nat.add_mul]; omega
      have x2 : (m + 2) * P - P = (m + 1) * P := by simp only [Nat.add_mul]; omega
      rw [x1, x2]
      have ho : P - (addr - p * P) = P - o := by omega
      rw [ho]
      refine Good.bind (coreLoop_good hP C m 1 (p + 1) p (min (m + 2) kArrayLength) 1 _ rfl
        (ar3 kArr) ar4
        (Nat.min_le_right _ _)) ?_
      rintro ⟨total, i, res⟩ ⟨a1, a2⟩
      simp only at a1 a2 ⊢
      rw [a2, bind_ok, bytes_many hP _ h1 h2 h6 h7]
      have e1 : p + 1 + m = p + (m + 1) := by omega
      rw [e1, a1]
      simp only [Nat.add_zero]
      show (if _ then _ else _) = _
      split <;> simp

/-! ### `PageFlags` -/

theorem bytesOn_const (P : Nat) (q : Nat → Bool) (a n : Nat) (b : Bool)
    (h : ∀ k, k < n → q ((a + k) / P) = b) : bytesOn P q a n = if b then n else 0 := by
  unfold bytesOn
  have : (List.range n).countP (fun k => q ((a + k) / P)) = (List.range n).countP (fun _ => b) := by
    apply List.countP_congr
    intro k hk
    rw [h k (List.mem_range.1 hk)]
  rw [this]
  cases b <;> simp

/-- All pages of a hugepage share its head. -/
theorem owner_same {K : Nat} {f : Nat → Word} (hK : 0 < K) (c : Compound K f) {p q : Nat}
    (hp : Head f p = true ∨ Tail f p = true) (hq : q / K = p / K) :
    owner K f q = p / K * K ∧ owner K f p = p / K * K := by
  have hh : Head f (p / K * K) = true := by
    rcases hp with h | h
    · have := (c.head p h).1
      have e : p / K * K = p := Nat.div_mul_cancel (Nat.dvd_of_mod_eq_zero this)
      rw [e]; exact h
    · exact c.tail p h
  have key : ∀ x, x / K = p / K → owner K f x = p / K * K := by
    intro x hx
    unfold owner
    split
    · rw [hx]
    · rename_i ht
      have hx2 : x = p / K * K + x % K := by
        have := Nat.div_add_mod x K
        rw [Nat.mul_comm, hx] at this; omega
      by_cases e : x % K = 0
      · omega
      · have := (c.head _ hh).2 (x % K) (Nat.pos_of_ne_zero e) (Nat.mod_lt _ hK)
        rw [← hx2] at this
        exact absurd this ht
  exact ⟨key q hq, key p rfl⟩

/-- The statistics of some bytes: all that `PageStats` accumulates. -/
structure StatsOf (a b : Nat) (s : Stats) : Prop where
  stale : s.stale = a
  locked : s.locked = b
  scan : s.scanSeconds = 0

theorem addToStats_of {a b : Nat} {s : Stats} (h : StatsOf a b s) (w : Word) (d : Nat) :
    StatsOf (a + if w.getLsbD 44 then d else 0)
      (b + if (w.getLsbD 33 || w.getLsbD 18) then d else 0) (addToStats s w d) := by
  unfold addToStats
  rw [pageStale_eq, pageLocked_eq]
  obtain ⟨h1, h2, h3⟩ := h
  cases w.getLsbD 44 <;> cases (w.getLsbD 33 || w.getLsbD 18) <;>
    constructor <;> simp [h1, h2, h3]

theorem maybeReadOne_good {P K : Nat} (hP : 0 < P) (F : File) (c : Compound K F.entry)
    (fd : Fd) (p : Nat) :
    Good (F.AllOk ∧ AllThp F.entry) (maybeReadOne P (K * P) F fd (p * P)) (fun x =>
      x.1 = F.entry (owner K F.entry p) ∧ x.2.1 = (Head F.entry p || Tail F.entry p) ∧
        (x.2.1 = false → x.2.2.pos = p + 1)) := by
  have lift : ∀ {α : Type} {r : Out α} {Q : α → Prop}, Good F.AllOk r Q →
      Good (F.AllOk ∧ AllThp F.entry) r Q := by
    intro α r Q h
    cases r with
    | ub => exact h
    | fail => exact fun x => h x.1
    | ok a => exact h
  unfold maybeReadOne
  refine Good.bind (lift (seek_good P F fd (p * P))) ?_
  intro fd1 f1
  rw [Nat.mul_div_cancel _ hP] at f1
  refine Good.bind (lift (readOne_good F fd1)) ?_
  rintro ⟨w, fd2⟩ ⟨w1, w2⟩
  simp only at w1 w2 ⊢
  rw [w1, f1, pageHead_eq, pageTail_eq, pageThp_eq]
  have hH : (F.entry p).getLsbD 15 = Head F.entry p := rfl
  have hT : (F.entry p).getLsbD 16 = Tail F.entry p := rfl
  rw [hH, hT]
  split
  · rename_i h
    rw [Bool.and_eq_true_iff, Bool.or_eq_true_iff] at h
    intro a
    have := a.2 p h.1
    rw [this] at h
    exact absurd h.2 (by decide)
  · split
    · rename_i _ ht
      refine Good.bind (lift (seek_good P F fd2 _)) ?_
      intro fd3 f3
      have e : p * P / (K * P) * (K * P) / P = p / K * K := by
        rw [Nat.mul_div_mul_right _ _ hP, ← Nat.mul_assoc, Nat.mul_div_cancel _ hP]
      rw [e] at f3
      refine Good.bind (lift (readOne_good F fd3)) ?_
      rintro ⟨w', fd4⟩ ⟨w3, w4⟩
      simp only at w3 w4 ⊢
      rw [w3, f3, pageTail_eq]
      have := c.excl _ (c.tail p ht)
      have hT' : (F.entry (p / K * K)).getLsbD 16 = Tail F.entry (p / K * K) := rfl
      rw [hT', this]
      simp only [Bool.false_eq_true, if_false]
      refine ⟨?_, by simp [ht], fun x => absurd x (by simp)⟩
      simp only [owner, ht, if_true]
    · rename_i _ ht
      have ht := Bool.eq_false_iff.2 ht
      refine ⟨by simp [owner, ht], by simp [ht], fun _ => ?_⟩
      simp only; omega

/-- `last_head_read_` is right for a tail page at `p`. -/
def LastOk (K : Nat) (f : Nat → Word) (p : Nat) (last : Word) : Prop :=
  Tail f p = true → last = f (p / K * K)

theorem head_ne_noHead {K : Nat} {f : Nat → Word} (c : Compound K f) {p : Nat} (h : Head f p = true) :
    f p ≠ noHead := by
  intro e
  have := c.excl p h
  unfold Tail at this
  rw [e] at this
  exact absurd this (by decide)

theorem lastOk_next {K : Nat} {f : Nat → Word} (hK : 0 < K) (c : Compound K f) {p : Nat} {last : Word}
    (h : LastOk K f p last) : LastOk K f (p + 1) (if Head f p then f p else last) := by
  intro ht
  have hh := c.tail _ ht
  have hle : (p + 1) / K * K ≤ p := by
    have : (p + 1) / K * K ≤ p + 1 := Nat.div_mul_le_self _ _
    have ne : (p + 1) / K * K ≠ p + 1 := by
      intro e
      rw [e] at hh
      have := c.excl _ hh
      rw [ht] at this
      exact absurd this (by decide)
    omega
  have hdiv : (p + 1) / K = p / K := by
    have h1 : (p + 1) / K ≤ p / K := by
      rw [Nat.le_div_iff_mul_le hK]; exact hle
    have h2 : p / K ≤ (p + 1) / K := Nat.div_le_div_right (by omega)
    omega
  rw [hdiv] at hh hle ⊢
  by_cases e : p / K * K = p
  · rw [e] at hh
    rw [if_pos hh, e]
  · have hx2 : p = p / K * K + p % K := by
      have := Nat.div_add_mod p K
      rw [Nat.mul_comm] at this; omega
    have hpt := (c.head _ hh).2 (p % K) (by omega) (Nat.mod_lt _ hK)
    rw [← hx2] at hpt
    have : Head f p = false := by
      cases hx : Head f p
      · rfl
      · rw [c.excl p hx] at hpt; exact absurd hpt (by decide)
    rw [this]
    simp only [Bool.false_eq_true, if_false]
    exact h hpt

theorem addAll_good {A : Prop} {P K : Nat} (hP : 0 < P) (hK : 0 < K) {f : Nat → Word}
    (c : Compound K f) :
    ∀ (k p : Nat) (last : Word) (s : Stats) (a b : Nat), LastOk K f p last → StatsOf a b s →
      Good A (addAll P ((List.range k).map (fun i => f (p + i))) last s) (fun x =>
        StatsOf (a + bytesOn P (Stale K f) (p * P) (k * P)) (b + bytesOn P (Locked K f) (p * P) (k * P)) x.1 ∧
          LastOk K f (p + k) x.2)
  | 0, p, last, s, a, b, hl, hs => by
    simp only [List.range_zero, List.map_nil, Nat.zero_mul, bytesOn_zero, Nat.add_zero]
    exact ⟨hs, hl⟩
  | k + 1, p, last, s, a, b, hl, hs => by
    rw [List.range_succ_eq_map, List.map_cons, List.map_map]
    have e : (List.range k).map ((fun i => f (p + i)) ∘ Nat.succ) =
        (List.range k).map (fun i => f (p + 1 + i)) := by
      apply List.map_congr_left
      intro i _
      simp only [Function.comp]
      congr 1; omega
    rw [e]
    have hn := lastOk_next hK c hl
    have own : (if Tail f p then (if Head f p then f p else last) else f p) = f (owner K f p) := by
      unfold owner
      split
      · rename_i ht
        have : Head f p = false := by
          cases hx : Head f p
          · rfl
          · rw [c.excl p hx] at ht; exact absurd ht (by decide)
        rw [this]
        simp only [Bool.false_eq_true, if_false]
        exact hl ht
      · rfl
    have fin : ∀ x : Stats × Word,
        (StatsOf (a + (if Stale K f p then P else 0) + bytesOn P (Stale K f) ((p + 1) * P) (k * P))
          (b + (if Locked K f p then P else 0) + bytesOn P (Locked K f) ((p + 1) * P) (k * P)) x.1 ∧
          LastOk K f (p + 1 + k) x.2) →
        (StatsOf (a + bytesOn P (Stale K f) (p * P) ((k + 1) * P))
          (b + bytesOn P (Locked K f) (p * P) ((k + 1) * P)) x.1 ∧
          LastOk K f (p + (k + 1)) x.2) := by
      rintro x ⟨a1, a2⟩
      rw [bytesOn_succ hP, bytesOn_succ hP]
      have : p + (k + 1) = p + 1 + k := by omega
      rw [this]
      simp only [← Nat.add_assoc] at a1 a2 ⊢
      exact ⟨a1, a2⟩
    have st : StatsOf (a + (if Stale K f p then P else 0)) (b + (if Locked K f p then P else 0))
        (addToStats s (f (owner K f p)) P) := addToStats_of hs _ _
    unfold addAll
    simp only [Nat.add_zero]
    rw [pageHead_eq, pageTail_eq]
    have hH : (f p).getLsbD 15 = Head f p := rfl
    have hT : (f p).getLsbD 16 = Tail f p := rfl
    rw [hH, hT]
    split
    · rename_i ht
      rw [if_pos ht] at own
      rw [own]
      rw [own] at hn
      have : f (owner K f p) ≠ noHead := by
        have : owner K f p = p / K * K := by unfold owner; rw [if_pos ht]
        rw [this]
        exact head_ne_noHead c (c.tail p ht)
      rw [if_neg this]
      exact Good.mono (addAll_good hP hK c k (p + 1) _ _ _ _ hn st) fin
    · rename_i ht
      rw [if_neg ht] at own
      have st' : StatsOf (a + (if Stale K f p then P else 0)) (b + (if Locked K f p then P else 0))
        (addToStats s (f p) P) := by rw [own]; exact st
      exact Good.mono (addAll_good hP hK c k (p + 1) _ _ _ _ hn st') fin

theorem flagsMany_good {P K : Nat} (hP : 0 < P) (hK : 0 < K) (F : File) (c : Compound K F.entry) :
    ∀ (num p : Nat) (fd : Fd) (last : Word) (s : Stats) (a b : Nat), fd.pos = p →
      LastOk K F.entry p last → StatsOf a b s →
      Good F.AllOk (flagsMany P F fd num last s) (fun x =>
        StatsOf (a + bytesOn P (Stale K F.entry) (p * P) (num * P))
          (b + bytesOn P (Locked K F.entry) (p * P) (num * P)) x.1) := by
  intro num
  induction num using Nat.strongRecOn with
  | _ num ih =>
    intro p fd last s a b hpos hl hs
    rw [flagsMany]
    split
    · rename_i e
      subst e
      simp only [Nat.zero_mul, bytesOn_zero, Nat.add_zero]
      exact hs
    · rename_i e
      simp only
      have hb : min kEntriesInBuf num ≤ kEntriesInBuf := Nat.min_le_left _ _
      have hb2 : 0 < min kEntriesInBuf num := by simp only [kEntriesInBuf]; omega
      have hb3 : min kEntriesInBuf num ≤ num := Nat.min_le_right _ _
      generalize min kEntriesInBuf num = d at *
      refine Good.bind (read_good F fd d hb) ?_
      rintro ⟨buf, fd'⟩ ⟨h1, h2⟩
      simp only at h1 h2 ⊢
      rw [h1, hpos]
      refine Good.bind (addAll_good hP hK c d p last s a b hl hs) ?_
      rintro ⟨s', last'⟩ ⟨a1, a2⟩
      simp only at a1 a2 ⊢
      refine Good.mono (ih (num - d) (by omega) (p + d) fd' _ _ _ _ (by omega) a2 a1) ?_
      intro x ax
      have e2 : num * P = d * P + (num - d) * P := by rw [← Nat.add_mul]; congr 1; omega
      have e3 : p * P + d * P = (p + d) * P := by simp only [Nat.add_mul]
      rw [e2, bytesOn_add, bytesOn_add, e3]
      simp only [← Nat.add_assoc] at ax ⊢
      exact ax

end Verif.Residency
