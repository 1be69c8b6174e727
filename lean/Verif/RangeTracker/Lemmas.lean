import Verif.RangeTracker.Spec
import Verif.Bitmap.Lemmas4
/-! Helper lemmas for C12. -/
namespace Verif.RangeTracker
open Verif.Bitmap

variable {b : Nat → Bool} {N : Nat}

theorem Run.eq_of_overlap {i len i' len' j : Nat} (h : Run b N i len) (h' : Run b N i' len')
    (h1 : i ≤ j) (h2 : j < i + len) (h3 : i' ≤ j) (h4 : j < i' + len') : i = i' ∧ len = len' := by
  have hi : i = i' := by
    rcases Nat.lt_trichotomy i i' with hlt | heq | hgt
    · have := h'.left (by omega)
      rw [h.free.2 (i' - 1) (by omega) (by omega)] at this; simp at this
    · exact heq
    · have := h.left (by omega)
      rw [h'.free.2 (i - 1) (by omega) (by omega)] at this; simp at this
  subst hi
  refine ⟨rfl, ?_⟩
  rcases Nat.lt_trichotomy len len' with hlt | heq | hgt
  · have := h.right (by have := h'.free.1; omega)
    rw [h'.free.2 (i + len) (by omega) (by omega)] at this; simp at this
  · exact heq
  · have := h'.right (by have := h.free.1; omega)
    rw [h.free.2 (i + len') (by omega) (by omega)] at this; simp at this

theorem Run.eq_of_start {i len len' : Nat} (h : Run b N i len) (h' : Run b N i len') : len = len' :=
  (h.eq_of_overlap h' (Nat.le_refl i) (by have := h.pos; omega) (Nat.le_refl i)
    (by have := h'.pos; omega)).2

theorem extend_left (b : Nat → Bool) (N : Nat) : ∀ (i len : Nat), Free b N i len →
    ∃ i', i' ≤ i ∧ Free b N i' (len + (i - i')) ∧ (0 < i' → b (i' - 1) = true) := by
  intro i
  induction i with
  | zero => intro len h; exact ⟨0, Nat.le_refl _, by simpa using h, by intro h; omega⟩
  | succ i ih =>
    intro len h
    cases hb : b i with
    | true => exact ⟨i + 1, Nat.le_refl _, by simpa using h, by intro _; simpa using hb⟩
    | false =>
      obtain ⟨i', h1, h2, h3⟩ := ih (len + 1) ⟨by have := h.1; omega, by
        intro j hj1 hj2
        by_cases hji : j = i
        · rw [hji]; exact hb
        · exact h.2 j (by omega) (by omega)⟩
      exact ⟨i', by omega, by rw [show len + (i + 1 - i') = len + 1 + (i - i') by omega]; exact h2, h3⟩

theorem extend_right (b : Nat → Bool) (N : Nat) : ∀ (m i len : Nat), N - (i + len) ≤ m →
    Free b N i len → ∃ len', len ≤ len' ∧ Free b N i len' ∧ (i + len' < N → b (i + len') = true) := by
  intro m
  induction m with
  | zero => intro i len hm h; exact ⟨len, Nat.le_refl _, h, by have := h.1; intro h; omega⟩
  | succ m ih =>
    intro i len hm h
    by_cases hlt : i + len < N
    · cases hb : b (i + len) with
      | true => exact ⟨len, Nat.le_refl _, h, fun _ => hb⟩
      | false =>
        obtain ⟨len', h1, h2, h3⟩ := ih i (len + 1) (by omega) ⟨by omega, by
          intro j hj1 hj2
          by_cases hji : j = i + len
          · rw [hji]; exact hb
          · exact h.2 j (by omega) (by omega)⟩
        exact ⟨len', by omega, h2, h3⟩
    · exact ⟨len, Nat.le_refl _, h, fun h => absurd h hlt⟩

theorem Free.sub_run {i len : Nat} (h : Free b N i len) (hp : 0 < len) :
    ∃ i' len', Run b N i' len' ∧ i' ≤ i ∧ i + len ≤ i' + len' := by
  obtain ⟨i', h1, h2, h3⟩ := extend_left b N i len h
  obtain ⟨len', h4, h5, h6⟩ := extend_right b N _ i' _ (Nat.le_refl _) h2
  exact ⟨i', len', ⟨by omega, h5, h3, h6⟩, h1, by omega⟩

/-- `L` in terms of maximal runs. -/
def RunMax (b : Nat → Bool) (N L : Nat) : Prop :=
  (∀ i len, Run b N i len → len ≤ L) ∧ (L = 0 ∨ ∃ i, Run b N i L)

theorem RunMax.longest {L : Nat} (h : RunMax b N L) : LongestFree b N L := by
  intro len
  constructor
  · rintro ⟨i, hi⟩
    by_cases h0 : len = 0
    · omega
    · obtain ⟨i', len', hr, h1, h2⟩ := hi.sub_run (by omega)
      have := h.1 _ _ hr; omega
  · intro hle
    rcases h.2 with h0 | ⟨i, hr⟩
    · exact ⟨0, by omega, by intro j _ _; omega⟩
    · exact ⟨i, by have := hr.free.1; omega, fun j h1 h2 => hr.free.2 j h1 (by omega)⟩

theorem LongestFree.runMax {L : Nat} (h : LongestFree b N L) : RunMax b N L := by
  constructor
  · intro i len hr; exact (h len).1 ⟨i, hr.free⟩
  · by_cases h0 : L = 0
    · exact Or.inl h0
    · obtain ⟨i, hi⟩ := (h L).2 (Nat.le_refl _)
      obtain ⟨i', len', hr, h1, h2⟩ := hi.sub_run (by omega)
      have := (h len').1 ⟨i', hr.free⟩
      have e : len' = L := by omega
      exact Or.inr ⟨i', e ▸ hr⟩

theorem LongestFree.unique {L L' : Nat} (h : LongestFree b N L) (h' : LongestFree b N L') : L = L' := by
  have h1 := (h' L).1 ((h L).2 (Nat.le_refl _))
  have h2 := (h L').1 ((h' L').2 (Nat.le_refl _))
  omega

theorem LongestFree.le {L : Nat} (h : LongestFree b N L) : L ≤ N := by
  obtain ⟨i, hi⟩ := (h L).2 (Nat.le_refl _)
  have := hi.1; omega

theorem LongestFree.congr {b' : Nat → Bool} {L : Nat} (h : LongestFree b N L)
    (e : ∀ j, j < N → b' j = b j) : LongestFree b' N L := by
  intro len
  rw [← h len]
  constructor
  · rintro ⟨i, h1, h2⟩; exact ⟨i, h1, fun j a c => by rw [← e j (by omega)]; exact h2 j a c⟩
  · rintro ⟨i, h1, h2⟩; exact ⟨i, h1, fun j a c => by rw [e j (by omega)]; exact h2 j a c⟩

/-- Invariant of the scan, about the runs that start before `index`. -/
structure ScanInv (b : Nat → Bool) (N n index : Nat) (s : Scan) : Prop where
  le : ∀ i len, Run b N i len → i < index → len ≤ s.longest
  two : ∃ iL, (0 < s.longest → Run b N iL s.longest ∧ iL < index) ∧
    (∀ i len, Run b N i len → i < index → i ≠ iL → len ≤ s.second) ∧
    (s.second = 0 ∨ ∃ i2, i2 ≠ iL ∧ i2 < index ∧ Run b N i2 s.second)
  sec : s.second ≤ s.longest
  best : (s.bestIndex = N ∧ s.bestLen = 2 * N ∧ ∀ i len, Run b N i len → i < index → len < n) ∨
    (Run b N s.bestIndex s.bestLen ∧ s.bestIndex < index ∧ n ≤ s.bestLen ∧
      ∀ i len, Run b N i len → i < index → n ≤ len →
        s.bestLen ≤ len ∧ (len = s.bestLen → s.bestIndex ≤ i))

theorem ScanInv.visit {n index i len : Nat} {s : Scan} (h : ScanInv b N n index s)
    (hr : Run b N i len) (hi : index ≤ i)
    (hno : ∀ i' len', Run b N i' len' → i' < i + len → i' < index ∨ i' = i) :
    ScanInv b N n (i + len) (s.visit n i len) := by
  have hpos := hr.pos
  obtain ⟨iL, t1, t2, t3⟩ := h.two
  have hle := h.le
  have hsec := h.sec
  have key : ∀ i' len', Run b N i' len' → i' < i + len → i' < index ∨ (i' = i ∧ len' = len) := by
    intro i' len' hr' hlt
    rcases hno i' len' hr' hlt with h1 | h1
    · exact Or.inl h1
    · subst h1; exact Or.inr ⟨rfl, hr'.eq_of_start hr⟩
  have lt' : ∀ i' : Nat, i' < index → i' < i + len := by intro i' h; omega
  have hbest := h.best
  -- first update
  have hs1 : ∀ s1 : Scan, s1 = (if len > s.longest then { s with second := s.longest, longest := len }
      else if len > s.second then { s with second := len } else s) →
      (∀ i' len', Run b N i' len' → i' < i + len → len' ≤ s1.longest) ∧
      (∃ iL, (0 < s1.longest → Run b N iL s1.longest ∧ iL < i + len) ∧
        (∀ i' len', Run b N i' len' → i' < i + len → i' ≠ iL → len' ≤ s1.second) ∧
        (s1.second = 0 ∨ ∃ i2, i2 ≠ iL ∧ i2 < i + len ∧ Run b N i2 s1.second)) ∧
      s1.second ≤ s1.longest ∧ s1.bestIndex = s.bestIndex ∧ s1.bestLen = s.bestLen := by
    intro s1 hs1
    by_cases c1 : len > s.longest
    · rw [if_pos c1] at hs1
      subst hs1
      refine ⟨?_, ⟨i, ?_, ?_, ?_⟩, ?_, rfl, rfl⟩
      · intro i' len' hr' hlt
        rcases key i' len' hr' hlt with hk | ⟨_, hk⟩
        · have := hle _ _ hr' hk; show len' ≤ len; omega
        · show len' ≤ len; omega
      · intro _; exact ⟨hr, by omega⟩
      · intro i' len' hr' hlt hne
        rcases key i' len' hr' hlt with hk | ⟨hk, _⟩
        · exact hle _ _ hr' hk
        · exact absurd hk hne
      · by_cases h0 : s.longest = 0
        · exact Or.inl h0
        · have := t1 (by omega)
          exact Or.inr ⟨iL, by omega, by omega, this.1⟩
      · show s.longest ≤ len; omega
    · rw [if_neg c1] at hs1
      have hL := t1 (by omega)
      by_cases c2 : len > s.second
      · rw [if_pos c2] at hs1
        subst hs1
        refine ⟨?_, ⟨iL, ?_, ?_, ?_⟩, ?_, rfl, rfl⟩
        · intro i' len' hr' hlt
          rcases key i' len' hr' hlt with hk | ⟨_, hk⟩
          · exact hle _ _ hr' hk
          · show len' ≤ s.longest; omega
        · intro _; exact ⟨hL.1, by omega⟩
        · intro i' len' hr' hlt hne
          rcases key i' len' hr' hlt with hk | ⟨_, hk⟩
          · have := t2 _ _ hr' hk hne; show len' ≤ len; omega
          · show len' ≤ len; omega
        · exact Or.inr ⟨i, by omega, by omega, hr⟩
        · show len ≤ s.longest; omega
      · rw [if_neg c2] at hs1
        subst hs1
        refine ⟨?_, ⟨iL, ?_, ?_, ?_⟩, hsec, rfl, rfl⟩
        · intro i' len' hr' hlt
          rcases key i' len' hr' hlt with hk | ⟨_, hk⟩
          · exact hle _ _ hr' hk
          · omega
        · intro _; exact ⟨hL.1, by omega⟩
        · intro i' len' hr' hlt hne
          rcases key i' len' hr' hlt with hk | ⟨_, hk⟩
          · exact t2 _ _ hr' hk hne
          · omega
        · rcases t3 with h0 | ⟨i2, a1, a2, a3⟩
          · exact Or.inl h0
          · exact Or.inr ⟨i2, a1, by omega, a3⟩
  unfold Scan.visit
  generalize hg : (if len > s.longest then { s with second := s.longest, longest := len }
      else if len > s.second then { s with second := len } else s : Scan) = s1
  obtain ⟨p1, p2, p3, p4, p5⟩ := hs1 s1 hg.symm
  simp only
  have hN := hr.free.1
  by_cases c : len ≥ n ∧ len < s1.bestLen
  · rw [if_pos c]
    refine ⟨p1, p2, p3, Or.inr ⟨hr, by show i < i + len; omega, c.1, ?_⟩⟩
    intro i' len' hr' hlt hn
    show len ≤ len' ∧ (len' = len → i ≤ i')
    rcases key i' len' hr' hlt with hk | ⟨hk, hk2⟩
    · rcases hbest with ⟨_, _, b3⟩ | ⟨_, _, _, b4⟩
      · have := b3 _ _ hr' hk; omega
      · have := (b4 _ _ hr' hk hn).1; rw [p5] at c; omega
    · omega
  · rw [if_neg c]
    refine ⟨p1, p2, p3, ?_⟩
    rw [p4, p5] at *
    rcases hbest with ⟨b1, b2, b3⟩ | ⟨b1, b2, b3, b4⟩
    · left
      refine ⟨b1, b2, ?_⟩
      intro i' len' hr' hlt
      rcases key i' len' hr' hlt with hk | ⟨_, hk⟩
      · exact b3 _ _ hr' hk
      · omega
    · right
      refine ⟨b1, by omega, b3, ?_⟩
      intro i' len' hr' hlt hn
      rcases key i' len' hr' hlt with hk | ⟨hk, hk2⟩
      · exact b4 _ _ hr' hk hn
      · omega

/-- The free range found from a boundary position is a maximal run, and no run is skipped. -/
theorem next_is_run {ws : List Word} (h : WF N ws) {index : Nat}
    (hidx : index = 0 ∨ N ≤ index ∨ bitAt ws index = true) :
    (∃ i len, nextFreeRange N ws index = some (some (i, len)) ∧ index < i + len ∧ i + len ≤ N ∧
      index ≤ i ∧ Run (bitAt ws) N i len ∧
      (∀ i' len', Run (bitAt ws) N i' len' → i' < i + len → i' < index ∨ i' = i) ∧
      (N ≤ i + len ∨ bitAt ws (i + len) = true)) ∨
    (nextFreeRange N ws index = some none ∧
      ∀ i' len', Run (bitAt ws) N i' len' → i' < index) := by
  rcases nextFreeRange_spec h index with ⟨i, len, e, h1, h2, h3, h4, h5, h6⟩ | ⟨e, h1⟩
  · left
    have hrun : Run (bitAt ws) N i len := by
      refine ⟨h2, ⟨h3, h5⟩, ?_, h6⟩
      intro hi
      by_cases hii : i = index
      · rcases hidx with h0 | h0 | h0
        · omega
        · omega
        · rw [← hii, h5 i (by omega) (by omega)] at h0; simp at h0
      · exact h4 _ (by omega) (by omega)
    refine ⟨i, len, e, by omega, h3, h1, hrun, ?_, ?_⟩
    · intro i' len' hr' hlt
      by_cases hlt2 : i' < index
      · exact Or.inl hlt2
      · right
        by_cases hlt3 : i' < i
        · have := h4 i' (by omega) hlt3
          rw [hr'.free.2 i' (by omega) (by have := hr'.pos; omega)] at this; simp at this
        · exact (hr'.eq_of_overlap hrun (Nat.le_refl _) (by have := hr'.pos; omega) (by omega) hlt).1
    · by_cases hc : i + len < N
      · exact Or.inr (h6 hc)
      · left; omega
  · right
    refine ⟨e, ?_⟩
    intro i' len' hr'
    apply Classical.byContradiction
    intro hn
    have := h1 i' (by omega) (by have := hr'.free.1; have := hr'.pos; omega)
    rw [hr'.free.2 i' (by omega) (by have := hr'.pos; omega)] at this; simp at this

theorem scan_spec {ws : List Word} (h : WF N ws) (n : Nat) : ∀ (m index : Nat) (s : Scan),
    N - index ≤ m → (index = 0 ∨ N ≤ index ∨ bitAt ws index = true) →
    ScanInv (bitAt ws) N n index s →
    ∃ s', scan N ws n index s = some s' ∧ ScanInv (bitAt ws) N n N s' := by
  intro m
  induction m with
  | zero =>
    intro index s hm hidx hinv
    rw [scan]
    rcases next_is_run h hidx with ⟨i, len, e, h1, h2, h3, h4, _⟩ | ⟨e, h1⟩
    · omega
    · rw [e]
      refine ⟨s, rfl, ?_⟩
      have e2 : ∀ i len, Run (bitAt ws) N i len → (i < N ↔ i < index) := by
        intro i len hr
        have := h1 i len hr; have := hr.free.1; have := hr.pos; omega
      obtain ⟨iL, t1, t2, t3⟩ := hinv.two
      refine ⟨fun i len hr _ => hinv.le i len hr (h1 i len hr), ⟨iL, ?_, ?_, ?_⟩, hinv.sec, ?_⟩
      · intro hp; obtain ⟨a, b⟩ := t1 hp; exact ⟨a, (e2 _ _ a).2 b⟩
      · intro i len hr _ hne; exact t2 i len hr (h1 _ _ hr) hne
      · rcases t3 with t3 | ⟨i2, a, b, c⟩
        · exact Or.inl t3
        · exact Or.inr ⟨i2, a, (e2 _ _ c).2 b, c⟩
      · rcases hinv.best with ⟨b1, b2, b3⟩ | ⟨b1, b2, b3, b4⟩
        · exact Or.inl ⟨b1, b2, fun i len hr _ => b3 i len hr (h1 _ _ hr)⟩
        · exact Or.inr ⟨b1, (e2 _ _ b1).2 b2, b3, fun i len hr _ hn => b4 i len hr (h1 _ _ hr) hn⟩
  | succ m ih =>
    intro index s hm hidx hinv
    rcases next_is_run h hidx with ⟨i, len, e, h1, h2, h3, h4, h5, h6⟩ | ⟨e, h1⟩
    · rw [scan, e]
      simp only
      rw [dif_pos ⟨h1, h2⟩]
      exact ih (i + len) _ (by omega) (Or.inr h6) (hinv.visit h4 h3 h5)
    · by_cases hle : N - index ≤ m
      · exact ih index s hle hidx hinv
      · rw [scan, e]
        refine ⟨s, rfl, ?_⟩
        have e2 : ∀ i len, Run (bitAt ws) N i len → (i < N ↔ i < index) := by
          intro i len hr
          have := h1 i len hr; have := hr.free.1; have := hr.pos; omega
        obtain ⟨iL, t1, t2, t3⟩ := hinv.two
        refine ⟨fun i len hr _ => hinv.le i len hr (h1 i len hr), ⟨iL, ?_, ?_, ?_⟩, hinv.sec, ?_⟩
        · intro hp; obtain ⟨a, b⟩ := t1 hp; exact ⟨a, (e2 _ _ a).2 b⟩
        · intro i len hr _ hne; exact t2 i len hr (h1 _ _ hr) hne
        · rcases t3 with t3 | ⟨i2, a, b, c⟩
          · exact Or.inl t3
          · exact Or.inr ⟨i2, a, (e2 _ _ c).2 b, c⟩
        · rcases hinv.best with ⟨b1, b2, b3⟩ | ⟨b1, b2, b3, b4⟩
          · exact Or.inl ⟨b1, b2, fun i len hr _ => b3 i len hr (h1 _ _ hr)⟩
          · exact Or.inr ⟨b1, (e2 _ _ b1).2 b2, b3, fun i len hr _ hn => b4 i len hr (h1 _ _ hr) hn⟩

theorem rescan_spec {ws : List Word} (h : WF N ws) : ∀ (m index L : Nat),
    N - index ≤ m → (index = 0 ∨ N ≤ index ∨ bitAt ws index = true) →
    (∀ i len, Run (bitAt ws) N i len → i < index → len ≤ L) →
    (L = 0 ∨ ∃ i, Run (bitAt ws) N i L) →
    ∃ L', rescan N ws index L = some L' ∧ RunMax (bitAt ws) N L' := by
  intro m
  induction m with
  | zero =>
    intro index L hm hidx hle hat
    rcases next_is_run h hidx with ⟨i, len, e, h1, h2, h3, h4, _⟩ | ⟨e, h1⟩
    · omega
    · rw [rescan, e]
      exact ⟨L, rfl, fun i len hr => hle i len hr (h1 _ _ hr), hat⟩
  | succ m ih =>
    intro index L hm hidx hle hat
    rcases next_is_run h hidx with ⟨i, len, e, h1, h2, h3, h4, h5, h6⟩ | ⟨e, h1⟩
    · rw [rescan, e]
      simp only
      rw [dif_pos ⟨h1, h2⟩]
      refine ih (i + len) _ (by omega) (Or.inr h6) ?_ ?_
      · intro i' len' hr' hlt
        rcases h5 i' len' hr' hlt with hk | hk
        · have := hle _ _ hr' hk
          split <;> omega
        · subst hk
          have := hr'.eq_of_start h4
          split <;> omega
      · split
        · exact Or.inr ⟨i, h4⟩
        · exact hat
    · rw [rescan, e]
      exact ⟨L, rfl, fun i len hr => hle i len hr (h1 _ _ hr), hat⟩

/-- Marking the front of a hole: the other holes are untouched and its tail remains. -/
theorem run_after_mark {b' : Nat → Bool} {i len n : Nat} (hr : Run b N i len) (hn : 0 < n)
    (hle : n ≤ len) (hb : ∀ j, b' j = if i ≤ j ∧ j < i + n then true else b j) (i' len' : Nat) :
    Run b' N i' len' ↔ (Run b N i' len' ∧ i' ≠ i) ∨ (i' = i + n ∧ len' = len - n ∧ n < len) := by
  have hbf : ∀ j, b' j = false ↔ b j = false ∧ ¬(i ≤ j ∧ j < i + n) := by
    intro j; rw [hb]; split <;> simp_all
  have hbt : ∀ j, b' j = true ↔ b j = true ∨ (i ≤ j ∧ j < i + n) := by
    intro j; rw [hb]; split
    · rename_i h; exact ⟨fun _ => Or.inr h, fun _ => rfl⟩
    · rename_i h; exact ⟨Or.inl, fun hh => hh.resolve_right h⟩
  constructor
  · intro h
    have hpos := h.pos
    by_cases hin : i ≤ i' ∧ i' < i + len
    · right
      have h1 := (hbf i').1 (h.free.2 i' (Nat.le_refl _) (by omega))
      have hi' : i' = i + n := by
        by_cases hgt : i + n < i'
        · have := h.left (by omega)
          rw [hbt] at this
          rcases this with h2 | h2
          · rw [hr.free.2 (i' - 1) (by omega) (by omega)] at h2; simp at h2
          · omega
        · omega
      refine ⟨hi', ?_, by omega⟩
      rcases Nat.lt_trichotomy len' (len - n) with hlt | heq | hgt
      · have := h.right (by have := hr.free.1; omega)
        rw [hbt] at this
        rcases this with h2 | h2
        · rw [hr.free.2 (i' + len') (by omega) (by omega)] at h2; simp at h2
        · omega
      · exact heq
      · have h2 := h.free.2 (i + len) (by omega) (by omega)
        rw [hbf] at h2
        have := hr.right (by have := h.free.1; omega)
        rw [h2.1] at this; simp at this
    · left
      have hsep : i' + len' < i ∨ i + len ≤ i' := by
        by_cases hge : i + len ≤ i'
        · exact Or.inr hge
        · left
          by_cases hc : i' + len' < i
          · exact hc
          · exfalso
            -- i' < i and it reaches i - 1 or beyond
            have h3 := (hbf (i - 1)).1 (h.free.2 (i - 1) (by omega) (by omega))
            have := hr.left (by omega)
            rw [h3.1] at this; simp at this
      refine ⟨⟨hpos, ⟨h.free.1, fun j h1 h2 => ((hbf j).1 (h.free.2 j h1 h2)).1⟩, ?_, ?_⟩, by omega⟩
      · intro h0
        rcases (hbt _).1 (h.left h0) with h2 | h2
        · exact h2
        · -- i' - 1 in [i, i+n): then i + len ≤ i' forces i' = i + len, n = len
          exfalso
          have hN := h.free.1
          have : i' = i + len := by omega
          have := hr.right (by omega)
          rw [← ‹i' = i + len›, ((hbf i').1 (h.free.2 i' (Nat.le_refl _) (by omega))).1] at this
          simp at this
      · intro h0
        rcases (hbt _).1 (h.right h0) with h2 | h2
        · exact h2
        · omega
  · rintro (⟨h, hne⟩ | ⟨h1, h2, h3⟩)
    · have hpos := h.pos
      have hsep : i' + len' < i ∨ i + len < i' := by
        apply Classical.byContradiction
        intro hc
        have hov : ¬ ∃ j, i ≤ j ∧ j < i + len ∧ i' ≤ j ∧ j < i' + len' := by
          rintro ⟨j, a1, a2, a3, a4⟩
          exact hne (h.eq_of_overlap hr a3 a4 a1 a2).1
        have hcase : i' + len' = i ∨ i + len = i' := by
          by_cases hlt : i' < i
          · left
            apply Classical.byContradiction
            intro hh
            exact hov ⟨i, by omega, by omega, by omega, by omega⟩
          · right
            apply Classical.byContradiction
            intro hh
            exact hov ⟨i', by omega, by omega, by omega, by omega⟩
        rcases hcase with hh | hh
        · have := hr.left (by omega)
          rw [h.free.2 (i - 1) (by omega) (by omega)] at this; simp at this
        · have := h.left (by omega)
          rw [hr.free.2 (i' - 1) (by omega) (by omega)] at this; simp at this
      refine ⟨hpos, ⟨h.free.1, ?_⟩, ?_, ?_⟩
      · intro j h1 h2; rw [hbf]; exact ⟨h.free.2 j h1 h2, by omega⟩
      · intro h0; rw [hbt]; exact Or.inl (h.left h0)
      · intro h0; rw [hbt]; exact Or.inl (h.right h0)
    · subst h1; subst h2
      refine ⟨by omega, ⟨by have := hr.free.1; omega, ?_⟩, ?_, ?_⟩
      · intro j h1 h2; rw [hbf]; exact ⟨hr.free.2 j (by omega) (by omega), by omega⟩
      · intro _; rw [hbt]; right; omega
      · intro h0; rw [hbt]; left
        rw [show i + n + (len - n) = i + len by omega]; exact hr.right (by omega)


theorem toCount_le {N x : Nat} (h : x ≤ N) : toCount N x = some x := if_pos h

theorem cnt_range (f : Nat → Bool) (n : Nat) : (List.range n).countP f = cnt f 0 n := by
  unfold cnt; rw [List.range_eq_range']

theorem findAndMark_spec {t : RT} (h : Exact N t) (ha : t.nallocs ≤ t.nused) {n : Nat} (hn : 0 < n)
    (hfit : n ≤ t.longestFree) :
    ∃ t' i len, findAndMark N t n = some (t', i) ∧ BestFit (bitAt t.bits) N n i len ∧
      (∀ j, bitAt t'.bits j = if i ≤ j ∧ j < i + n then true else bitAt t.bits j) ∧
      Exact N t' ∧ t'.nused = t.nused + n ∧ t'.nallocs = t.nallocs + 1 := by
  obtain ⟨s, hs, hinv⟩ := scan_spec h.wf n N 0
    { longest := 0, second := 0, bestIndex := N, bestLen := 2 * N } (by omega) (Or.inl rfl)
    ⟨by intro i len _ h; omega, ⟨0, by intro h; exact absurd h (by simp), by intro i len _ h; omega,
      Or.inl rfl⟩, Nat.le_refl _, Or.inl ⟨rfl, rfl, by intro i len _ h; omega⟩⟩
  have hall : ∀ {i len}, Run (bitAt t.bits) N i len → i < N := by
    intro i len hr; have := hr.free.1; have := hr.pos; omega
  have hmax := h.longest.runMax
  have hN := h.longest.le
  unfold findAndMark
  rw [if_pos hn, hs]
  simp only
  rcases hinv.best with ⟨b1, b2, b3⟩ | ⟨b1, b2, b3, b4⟩
  · exfalso
    rcases hmax.2 with h0 | ⟨i, hr⟩
    · omega
    · have := b3 _ _ hr (hall hr); omega
  have hfree := b1.free.1
  rw [if_pos b2]
  obtain ⟨ws', r1, r2, r3⟩ := setRangeValue_spec true h.wf (index := s.bestIndex) (n := n) hn
    (by omega)
  rw [r1]
  simp only
  have hruns := run_after_mark b1 hn b3 r3
  have hnew : RunMax (bitAt ws') N (if s.bestLen = s.longest then
      (if s.longest - n < s.second then s.second else s.longest - n) else s.longest) := by
    obtain ⟨iL, t1, t2, t3⟩ := hinv.two
    have hbl := hinv.le _ _ b1 b2
    have hsec := hinv.sec
    have hLr := t1 (by have := b1.pos; omega)
    by_cases c : s.bestLen = s.longest
    · rw [if_pos c]
      constructor
      · intro i len hr
        rw [hruns] at hr
        rcases hr with ⟨hr, hne⟩ | ⟨_, hl, _⟩
        · have hsec : len ≤ s.second := by
            by_cases hiL : i = iL
            · subst hiL
              have h1 := t2 _ _ b1 b2 (by omega)
              have h2 := hinv.le _ _ hr (hall hr)
              omega
            · exact t2 _ _ hr (hall hr) hiL
          split <;> omega
        · split <;> omega
      · by_cases c2 : s.longest - n < s.second
        · rw [if_pos c2]
          rcases t3 with h0 | ⟨i2, a1, a2, a3⟩
          · exact Or.inl h0
          · right
            by_cases hb : i2 = s.bestIndex
            · -- then best is the second run; the longest run has the same length
              subst hb
              have h2 := a3.eq_of_start b1
              refine ⟨iL, (hruns _ _).2 (Or.inl ⟨?_, by omega⟩)⟩
              rw [h2, c]; exact hLr.1
            · exact ⟨i2, (hruns _ _).2 (Or.inl ⟨a3, hb⟩)⟩
        · rw [if_neg c2]
          by_cases h0 : s.longest - n = 0
          · exact Or.inl h0
          · exact Or.inr ⟨s.bestIndex + n, (hruns _ _).2 (Or.inr ⟨rfl, by omega, by omega⟩)⟩
    · rw [if_neg c]
      constructor
      · intro i len hr
        rw [hruns] at hr
        rcases hr with ⟨hr, hne⟩ | ⟨_, hl, _⟩
        · exact hinv.le _ _ hr (hall hr)
        · omega
      · right
        refine ⟨iL, (hruns _ _).2 (Or.inl ⟨hLr.1, ?_⟩)⟩
        intro e
        subst e
        exact c (b1.eq_of_start hLr.1)
  generalize (if s.bestLen = s.longest then
      (if s.longest - n < s.second then s.second else s.longest - n) else s.longest) = L at hnew
  have hLN := hnew.longest.le
  have hcnt : cnt (bitAt ws') 0 N = t.nused + n := by
    have := cnt_setRange (f := bitAt t.bits) (g := bitAt ws') (N := N) (i := s.bestIndex) (n := n)
      (by omega) (by intro k hk; rw [r3, if_neg hk])
    rw [cnt_false (f := bitAt t.bits) (fun k h1 h2 => b1.free.2 k h1 (by omega)),
      cnt_true (f := bitAt ws') (a := s.bestIndex) (n := n) (fun k h1 h2 => by rw [r3, if_pos ⟨h1, h2⟩])] at this
    rw [h.used, cnt_range]; omega
  have hle := cnt_le (bitAt ws') 0 N
  rw [toCount_le hLN, toCount_le (by omega), toCount_le (by omega)]
  refine ⟨_, _, s.bestLen, rfl, ⟨b1, b3, ?_, ?_⟩, r3, ⟨r2, hnew.longest, ?_⟩, rfl, rfl⟩
  · intro i' len' hr hn'; exact (b4 _ _ hr (hall hr) hn').1
  · intro i' hr; exact (b4 _ _ hr (hall hr) b3).2 rfl
  · rw [cnt_range]; exact hcnt.symm

/-- If nothing fits, `FindAndMark` fails its check. -/
theorem findAndMark_none {t : RT} (h : Exact N t) {n : Nat}
    (hfit : t.longestFree < n) : findAndMark N t n = none := by
  obtain ⟨s, hs, hinv⟩ := scan_spec h.wf n N 0
    { longest := 0, second := 0, bestIndex := N, bestLen := 2 * N } (by omega) (Or.inl rfl)
    ⟨by intro i len _ h; omega, ⟨0, by intro h; exact absurd h (by simp), by intro i len _ h; omega,
      Or.inl rfl⟩, Nat.le_refl _, Or.inl ⟨rfl, rfl, by intro i len _ h; omega⟩⟩
  unfold findAndMark
  rw [if_pos (by omega), hs]
  simp only
  rcases hinv.best with ⟨b1, b2, b3⟩ | ⟨b1, b2, b3, b4⟩
  · rw [if_neg (by omega)]
  · have := h.longest.runMax.1 _ _ b1; omega

theorem mark_spec {t : RT} (h : Exact N t) (ha : t.nallocs ≤ t.nused) {i n : Nat} (hn : 0 < n)
    (hfree : Free (bitAt t.bits) N i n) :
    ∃ t', mark N t i n = some t' ∧
      (∀ j, bitAt t'.bits j = if i ≤ j ∧ j < i + n then true else bitAt t.bits j) ∧
      Exact N t' ∧ t'.nused = t.nused + n ∧ t'.nallocs = t.nallocs + 1 := by
  have hb := hfree.1
  unfold mark
  obtain ⟨r, f1, f2, f3, f4, f5⟩ := findValue_spec true h.wf (index := i) (by omega)
  have f1' : findSet N t.bits i = some r := f1
  rw [f1']
  simp only
  have hr : i + n ≤ r := by
    apply Classical.byContradiction
    intro hlt
    have := f5 (by omega)
    rw [hfree.2 r (by omega) (by omega)] at this; simp at this
  rw [if_pos hr]
  obtain ⟨ws', r1, r2, r3⟩ := setRangeValue_spec true h.wf (index := i) (n := n) hn hb
  rw [r1]
  simp only
  obtain ⟨L, l1, l2⟩ := rescan_spec r2 N 0 0 (by omega) (Or.inl rfl) (by intro i len _ h; omega)
    (Or.inl rfl)
  rw [l1]
  simp only
  have hLN := l2.longest.le
  have hcnt : cnt (bitAt ws') 0 N = t.nused + n := by
    have := cnt_setRange (f := bitAt t.bits) (g := bitAt ws') (N := N) (i := i) (n := n)
      (by omega) (by intro k hk; rw [r3, if_neg hk])
    rw [cnt_false (f := bitAt t.bits) (fun k h1 h2 => hfree.2 k h1 (by omega)),
      cnt_true (f := bitAt ws') (a := i) (n := n) (fun k h1 h2 => by rw [r3, if_pos ⟨h1, h2⟩])] at this
    rw [h.used, cnt_range]; omega
  have hle := cnt_le (bitAt ws') 0 N
  rw [toCount_le hLN, toCount_le (by omega), toCount_le (by omega)]
  exact ⟨_, rfl, r3, ⟨r2, l2.longest, by rw [cnt_range]; exact hcnt.symm⟩, rfl, rfl⟩

theorem unmark_spec {t : RT} (h : Exact N t) (ha : 1 ≤ t.nallocs) {i n : Nat} (hn : 0 < n)
    (hb : i + n ≤ N) (hset : ∀ j, i ≤ j → j < i + n → bitAt t.bits j = true) :
    ∃ t', unmark N t i n = some t' ∧
      (∀ j, bitAt t'.bits j = if i ≤ j ∧ j < i + n then false else bitAt t.bits j) ∧
      Exact N t' ∧ t'.nused + n = t.nused ∧ t'.nallocs + 1 = t.nallocs := by
  unfold unmark
  obtain ⟨r, f1, f2, f3, f4, f5⟩ := findValue_spec false h.wf (index := i) (by omega)
  have f1' : findClear N t.bits i = some r := f1
  rw [f1']
  simp only
  have hr : i + n ≤ r := by
    apply Classical.byContradiction
    intro hlt
    have := f5 (by omega)
    rw [hset r (by omega) (by omega)] at this; simp at this
  rw [if_pos hr]
  obtain ⟨ws', r1, r2, r3⟩ := setRangeValue_spec false h.wf (index := i) (n := n) hn hb
  rw [r1]
  have hcnt : cnt (bitAt ws') 0 N + n = t.nused := by
    have := cnt_setRange (f := bitAt t.bits) (g := bitAt ws') (N := N) (i := i) (n := n)
      (by omega) (by intro k hk; rw [r3, if_neg hk])
    rw [cnt_true (f := bitAt t.bits) (fun k h1 h2 => hset k h1 (by omega)),
      cnt_false (f := bitAt ws') (a := i) (n := n) (fun k h1 h2 => by rw [r3, if_pos ⟨h1, h2⟩])] at this
    rw [h.used, cnt_range]; omega
  unfold subCount
  rw [if_pos (by omega), if_pos ha]
  simp only
  obtain ⟨lim, g1, g2, g3, g4, g5⟩ := findValue_spec true r2 (index := i + n - 1) (by omega)
  have g1' : findSet N ws' (i + n - 1) = some lim := g1
  obtain ⟨back, k1, k2, k3, k4, k5⟩ := findValueBackwards_spec true r2 (index := i) (by omega)
  rw [g1', k1]
  simp only
  -- the merged hole
  have hfree' : ∀ j, i ≤ j → j < i + n → bitAt ws' j = false := by
    intro j h1 h2; rw [r3, if_pos ⟨h1, h2⟩]
  have hlim : i + n ≤ lim := by
    apply Classical.byContradiction
    intro hlt
    have e : lim = i + n - 1 := by omega
    have := g5 (by omega)
    rw [hfree' lim (by omega) (by omega)] at this; simp at this
  have hback : back < i := by
    apply Classical.byContradiction
    intro hlt
    have e : back = (i : Int) := by omega
    have := k5 (by omega)
    rw [e] at this
    simp only [Int.toNat_natCast] at this
    rw [hfree' i (by omega) (by omega)] at this; simp at this
  generalize hidx : (back + 1).toNat = idx
  have hidx2 : (idx : Int) = back + 1 := by omega
  have hidxle : idx ≤ i := by omega
  have hrun : Run (bitAt ws') N idx (lim - idx) := by
    refine ⟨by omega, ⟨by omega, ?_⟩, ?_, ?_⟩
    · intro j h1 h2
      by_cases hj1 : j ≤ i
      · have := k4 j (by omega) hj1
        cases hh : bitAt ws' j <;> simp_all
      · by_cases hj2 : j < i + n
        · exact hfree' j (by omega) hj2
        · have := g4 j (by omega) (by omega)
          cases hh : bitAt ws' j <;> simp_all
    · intro h0
      have := k5 (by omega)
      rwa [show back.toNat = idx - 1 by omega] at this
    · intro h0
      have := g5 (by omega)
      rwa [show idx + (lim - idx) = lim by omega]
  have hbits : ∀ j, bitAt t.bits j = if i ≤ j ∧ j < i + n then true else bitAt ws' j := by
    intro j
    rw [r3]
    by_cases hj : i ≤ j ∧ j < i + n
    · rw [if_pos hj]; exact hset j hj.1 hj.2
    · rw [if_neg hj, if_neg hj]
  have hmax := h.longest.runMax
  have hnew : RunMax (bitAt ws') N (if lim - idx > t.longestFree then lim - idx else t.longestFree) := by
    constructor
    · intro i' len' hr'
      by_cases hov : ∃ j, idx ≤ j ∧ j < lim ∧ i' ≤ j ∧ j < i' + len'
      · obtain ⟨j, a1, a2, a3, a4⟩ := hov
        have := (hr'.eq_of_overlap hrun a3 a4 a1 (by omega)).2
        split <;> omega
      · have hf : Free (bitAt t.bits) N i' len' := by
          refine ⟨hr'.free.1, ?_⟩
          intro j h1 h2
          rw [hbits, if_neg (by intro hc; exact hov ⟨j, by omega, by omega, h1, h2⟩)]
          exact hr'.free.2 j h1 h2
        have := (h.longest len').1 ⟨i', hf⟩
        split <;> omega
    · split
      · exact Or.inr ⟨idx, hrun⟩
      · rename_i hle
        rcases hmax.2 with h0 | ⟨i', hr'⟩
        · exact Or.inl h0
        · -- the old longest hole is free in the new map too, so inside a run of length ≤ it
          right
          have hf : Free (bitAt ws') N i' t.longestFree := by
            refine ⟨hr'.free.1, ?_⟩
            intro j h1 h2
            rw [r3]
            split
            · rfl
            · exact hr'.free.2 j h1 h2
          obtain ⟨i2, len2, q1, q2, q3⟩ := hf.sub_run hr'.pos
          by_cases hov : ∃ j, idx ≤ j ∧ j < lim ∧ i2 ≤ j ∧ j < i2 + len2
          · obtain ⟨j, a1, a2, a3, a4⟩ := hov
            have he := (q1.eq_of_overlap hrun a3 a4 a1 (by omega)).2
            have : len2 = t.longestFree := by omega
            exact ⟨i2, this ▸ q1⟩
          · have hf2 : Free (bitAt t.bits) N i2 len2 := by
              refine ⟨q1.free.1, ?_⟩
              intro j h1 h2
              rw [hbits, if_neg (by intro hc; exact hov ⟨j, by omega, by omega, h1, h2⟩)]
              exact q1.free.2 j h1 h2
            have := (h.longest len2).1 ⟨i2, hf2⟩
            have : len2 = t.longestFree := by omega
            exact ⟨i2, this ▸ q1⟩
  have hLN := hnew.longest.le
  rw [toCount_le hLN]
  refine ⟨_, rfl, r3, ⟨r2, hnew.longest, ?_⟩, ?_, ?_⟩
  · rw [cnt_range]; show t.nused - n = cnt (bitAt ws') 0 N; omega
  · show t.nused - n + n = _; omega
  · show t.nallocs - 1 + 1 = _; omega

theorem exact_clear (N : Nat) : Exact N (clear N) := by
  refine ⟨wf_empty N, ?_, ?_⟩
  · intro len
    constructor
    · rintro ⟨i, h1, _⟩; show len ≤ N; omega
    · intro h; exact ⟨0, by have : len ≤ N := h; omega, fun j _ _ => bitAt_empty N j⟩
  · rw [cnt_range]
    show 0 = _
    rw [cnt_false]
    intro k _ _; exact bitAt_empty N k

end Verif.RangeTracker
