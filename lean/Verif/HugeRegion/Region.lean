import Verif.HugeRegion.Lemmas
import Verif.PageTracker.Spec
/-! One region: what its operations do. -/
namespace Verif.HugeRegion
open Verif.Bitmap Verif.RangeTracker
open Verif.PageTracker (Call okSum)

variable {H N : Nat}

/-- The region's books agree with its live runs. -/
structure K (H N : Nat) (r : R) (L : List (Nat × Nat)) : Prop where
  good : Good (H * N) r.trk L
  u : U H N r (bitAt r.trk.bits)

theorem U.congr {r : R} {b b' : Nat → Bool} (u : U H N r b) (h : ∀ j, b' j = b j) : U H N r b' := by
  have : b' = b := funext h
  rw [this]; exact u

theorem clear_bit (M j : Nat) : bitAt (clear M).bits j = false := bitAt_empty M j

theorem K.new (H N loc : Nat) : K H N (R.new H N loc) [] := by
  refine ⟨⟨exact_clear _, by simp, List.Pairwise.nil, ?_, rfl, rfl⟩, ⟨?_, ?_, ?_, ?_⟩⟩
  · intro j
    show bitAt (clear (H * N)).bits j = true ↔ _
    rw [clear_bit]; simp
  · intro i _
    show 0 = _
    exact (cnt_false (fun k _ _ => clear_bit _ k)).symm
  · intro i _ h; exact absurd h (by simp [R.new])
  · exact (cnt_false (fun _ _ _ => rfl)).symm
  · exact (cnt_false (fun _ _ _ => rfl)).symm

theorem usedSum_zero {f : Nat → Nat} {i j : Nat} (h : ∀ k, i ≤ k → k < j → f k = 0) : usedSum f i j = 0 := by
  unfold usedSum
  have : (List.range' i (j - i)).map f = List.replicate (j - i) 0 := by
    rw [List.eq_replicate_iff]
    refine ⟨by simp, ?_⟩
    intro b hb
    rw [List.mem_map] at hb
    obtain ⟨k, hk, e⟩ := hb
    rw [List.mem_range'_1] at hk
    rw [← e]; exact h k hk.1 (by omega)
  rw [this]; simp

theorem usedSum_fill {f : Nat → Nat} {i j v : Nat} : usedSum (fill f i j v) i j = (j - i) * v := by
  unfold usedSum
  have : (List.range' i (j - i)).map (fill f i j v) = List.replicate (j - i) v := by
    rw [List.eq_replicate_iff]
    refine ⟨by simp, ?_⟩
    intro b hb
    rw [List.mem_map] at hb
    obtain ⟨k, hk, e⟩ := hb
    rw [List.mem_range'_1] at hk
    rw [← e]; unfold fill; rw [if_pos (by omega)]
  rw [this]; simp

theorem cnt_fill {f g : Nat → Bool} {i j : Nat} (hij : i ≤ j) (hj : j ≤ H) (hf : ∀ k, i ≤ k → k < j → f k = true)
    (hg : ∀ k, i ≤ k → k < j → g k = false) (hout : ∀ k, ¬(i ≤ k ∧ k < j) → g k = f k) :
    cnt g 0 H + (j - i) = cnt f 0 H := by
  have h := cnt_setRange (f := f) (g := g) (N := H) (i := i) (n := j - i) (by omega)
    (fun k hk => hout k (by omega))
  rw [cnt_true (f := f) (fun k h1 h2 => hf k h1 (by omega)), cnt_false (f := g) (fun k h1 h2 => hg k h1 (by omega))] at h
  omega

theorem hp_free (hN : 0 < N) {r : R} {b : Nat → Bool} (u : U H N r b) {k : Nat} (hk : k < H) (h0 : r.used k = 0) {p : Nat}
    (hp : p / N = k) : b p = false := by
  rw [u.used k hk] at h0
  cases hb : b p with
  | false => rfl
  | true =>
    have h1 := block hN p
    rw [hp] at h1
    have := (cnt_pos_iff (f := b) (a := k * N) (n := N)).2 ⟨p, h1.1, h1.2, hb⟩
    omega

theorem hp_used (hN : 0 < N) {r : R} {b : Nat → Bool} (u : U H N r b) {k : Nat} (hk : k < H) :
    r.used k = 0 ↔ ∀ p, p / N = k → b p = false := by
  constructor
  · intro h0 p hp; exact hp_free hN u hk h0 hp
  · intro h
    rw [u.used k hk]
    exact cnt_false (fun p h1 h2 => h p (block_div hN h1 h2))

theorem unbackRun_spec (hN : 0 < N) {r : R} {L : List (Nat × Nat)} (k : K H N r L) {i j : Nat} (hij : i < j) (hj : j ≤ H)
    (he : ∀ x, i ≤ x → x < j → r.empty x = true) (ok : Bool) :
    ∃ r', unbackRun H N r i j ok = some r' ∧ K H N r' L ∧ r'.loc = r.loc ∧ r'.used = r.used ∧
      (∀ p, bitAt r'.trk.bits p = bitAt r.trk.bits p) ∧
      (∀ x, r'.backed x = if ok = true ∧ i ≤ x ∧ x < j then false else r.backed x) ∧
      r'.freeBacked + (if ok then j - i else 0) = r.freeBacked ∧
      r'.totalUnbacked = r.totalUnbacked + (if ok then j - i else 0) := by
  have hsub : (j - i) * N = j * N - i * N := Nat.sub_mul j i N
  have hjN : j * N ≤ H * N := Nat.mul_le_mul_right N hj
  have hiN := block_lt hij N
  have hfree : Free (bitAt r.trk.bits) (H * N) (i * N) ((j - i) * N) := by
    refine ⟨by omega, ?_⟩
    intro p h1 h2
    have hb := block hN p
    have hpi : i ≤ p / N := by
      apply Classical.byContradiction; intro hc
      have := block_lt (show p / N < i by omega) N; omega
    have hpj : p / N < j := by
      apply Classical.byContradiction; intro hc
      have := Nat.mul_le_mul_right N (show j ≤ p / N by omega); omega
    have := he _ hpi hpj
    rw [R.empty, Bool.and_eq_true] at this
    exact hp_free hN k.u (by omega) (by simpa using this.2) rfl
  have hpos : 0 < (j - i) * N := by omega
  obtain ⟨t1, m1, m2, m3, m4, m5⟩ := mark_spec k.good.exact k.good.allocs_le hpos hfree
  have g1 := k.good.add hpos hfree m2 m3 m4 m5
  obtain ⟨t2, n1, n2, n3, n4, n5⟩ := unmark_spec m3 (g1.pos (List.mem_cons_self)) hpos hfree.1
    (by intro p h1 h2; rw [m2, if_pos ⟨h1, h2⟩])
  have g2 := g1.remove (List.mem_cons_self) n2 n3 n4 n5
  rw [List.erase_cons_head] at g2
  have hbits : ∀ p, bitAt t2.bits p = bitAt r.trk.bits p := by
    intro p
    rw [n2, m2]
    by_cases hp : i * N ≤ p ∧ p < i * N + (j - i) * N
    · rw [if_pos hp, hfree.2 p hp.1 hp.2]
    · rw [if_neg hp, if_neg hp]
  have hused : fill (fill r.used i j N) i j 0 = r.used := by
    funext x
    unfold fill
    by_cases hx : i ≤ x ∧ x < j
    · rw [if_pos hx]
      have := he x hx.1 hx.2
      rw [R.empty, Bool.and_eq_true] at this
      exact (show r.used x = 0 by simpa using this.2).symm
    · rw [if_neg hx, if_neg hx]
  have hu0 : usedSum r.used i j = 0 := usedSum_zero (by
    intro x h1 h2
    have := he x h1 h2
    rw [R.empty, Bool.and_eq_true] at this
    simpa using this.2)
  have hbacked : ∀ x, i ≤ x → x < j → r.backed x = true := by
    intro x h1 h2
    have := he x h1 h2
    rw [R.empty, Bool.and_eq_true] at this
    exact this.1
  have cfb := cnt_fill (f := r.empty) (g := fun x => fill r.backed i j false x && r.used x == 0) (Nat.le_of_lt hij) hj he
    (by intro x h1 h2; simp only [fill]; rw [if_pos ⟨h1, h2⟩]; rfl)
    (by intro x hx; simp only [fill, R.empty]; rw [if_neg hx])
  have cnb := cnt_fill (f := r.backed) (g := fill r.backed i j false) (Nat.le_of_lt hij) hj hbacked
    (by intro x h1 h2; simp only [fill]; rw [if_pos ⟨h1, h2⟩])
    (by intro x hx; simp only [fill]; rw [if_neg hx])
  have hfb := k.u.fb
  have hnb := k.u.nb
  unfold unbackRun
  rw [m1]
  simp only []
  rw [if_pos hu0, show subCount r.freeBacked (j - i) = some (r.freeBacked - (j - i)) by
    unfold subCount; rw [if_pos (by omega)]]
  simp only []
  cases ok with
  | true =>
    rw [if_pos rfl, show subCount r.nbacked (j - i) = some (r.nbacked - (j - i)) by
      unfold subCount; rw [if_pos (by omega)]]
    simp only [Option.map_some]
    rw [if_pos usedSum_fill, n1]
    simp only []
    refine ⟨_, rfl, ⟨g2, ?_⟩, rfl, hused, hbits, ?_, ?_, rfl⟩
    · refine U.congr (b := bitAt r.trk.bits) ⟨?_, ?_, ?_, ?_⟩ hbits
      · intro x hx
        show fill (fill r.used i j N) i j 0 x = _
        rw [hused]; exact k.u.used x hx
      · intro x hx h0
        simp only [hused] at h0
        show fill r.backed i j false x = true
        unfold fill
        rw [if_neg]
        · exact k.u.bk x hx h0
        · intro hc
          have := he x hc.1 hc.2
          rw [R.empty, Bool.and_eq_true] at this
          have := this.2
          simp at this; omega
      · show r.nbacked - (j - i) = cnt (fill r.backed i j false) 0 H
        omega
      · show r.freeBacked - (j - i) = cnt (fun x => fill r.backed i j false x && fill (fill r.used i j N) i j 0 x == 0) 0 H
        rw [hused]; omega
    · intro x
      show fill r.backed i j false x = _
      unfold fill; simp
    · show r.freeBacked - (j - i) + (j - i) = r.freeBacked
      omega
  | false =>
    rw [if_neg (by simp)]
    simp only []
    rw [if_pos usedSum_fill, n1]
    simp only []
    refine ⟨_, rfl, ⟨g2, ?_⟩, rfl, hused, hbits, ?_, ?_, rfl⟩
    · refine U.congr (b := bitAt r.trk.bits) ⟨?_, ?_, hnb, ?_⟩ hbits
      · intro x hx
        show fill (fill r.used i j N) i j 0 x = _
        rw [hused]; exact k.u.used x hx
      · intro x hx h0
        simp only [hused] at h0
        exact k.u.bk x hx h0
      · show r.freeBacked - (j - i) + (j - i) = cnt (fun x => r.backed x && fill (fill r.used i j N) i j 0 x == 0) 0 H
        rw [hused]
        have : cnt r.empty 0 H = cnt (fun x => r.backed x && r.used x == 0) 0 H := rfl
        omega
    · intro x; simp
    · show r.freeBacked - (j - i) + (j - i) + 0 = r.freeBacked
      omega

theorem runEnd_spec (H : Nat) (sh : Nat → Bool) : ∀ (m j : Nat), H - j ≤ m → j ≤ H →
    j ≤ runEnd H sh j ∧ runEnd H sh j ≤ H ∧ (∀ x, j ≤ x → x < runEnd H sh j → sh x = true) ∧
      (runEnd H sh j < H → sh (runEnd H sh j) = false) := by
  intro m
  induction m with
  | zero =>
    intro j hm hj
    unfold runEnd
    rw [if_neg (by omega)]
    exact ⟨Nat.le_refl _, hj, by intro x h1 h2; omega, by intro h; omega⟩
  | succ m ih =>
    intro j hm hj
    unfold runEnd
    by_cases h : j < H ∧ sh j = true
    · rw [if_pos h]
      obtain ⟨a, b, c, d⟩ := ih (j + 1) (by omega) (by omega)
      refine ⟨by omega, b, ?_, d⟩
      intro x h1 h2
      by_cases e : x = j
      · rw [e]; exact h.2
      · exact c x (by omega) h2
    · rw [if_neg h]
      refine ⟨Nat.le_refl _, hj, by intro x h1 h2; omega, ?_⟩
      intro hlt
      cases hs : sh j with
      | false => rfl
      | true => exact absurd ⟨hlt, hs⟩ h

theorem okSum_cons (c : Call) (l : List Call) : okSum (c :: l) = (if c.ok then c.n else 0) + okSum l := rfl

/-- What `UnbackHugepages` does for the hugepages `sh` from hugepage `i` on: the calls `new` are the maximal runs of
selected hugepages, in order. -/
structure Calls (H : Nat) (sh : Nat → Bool) (i : Nat) (new : List Call) : Prop where
  inside : ∀ c ∈ new, i ≤ c.i ∧ 0 < c.n ∧ c.i + c.n ≤ H ∧ ∀ x, c.Has x → sh x = true
  all : ∀ x, i ≤ x → x < H → sh x = true → ∃ c ∈ new, c.Has x
  sorted : new.Pairwise (fun c d => c.i + c.n < d.i)
  sum : (new.map Call.n).sum = cnt sh i (H - i)

theorem unbackLoop_spec (hN : 0 < N) (sh ok : Nat → Bool) : ∀ (m i : Nat) (r : R) (L : List (Nat × Nat)) (released : Nat)
    (calls : List Call), H - i ≤ m → i ≤ H → K H N r L → (∀ x, i ≤ x → x < H → sh x = true → r.empty x = true) →
    ∃ r' new, unbackLoop H N r sh ok i released calls = some (r', released + okSum new, calls ++ new) ∧ K H N r' L ∧
      Calls H sh i new ∧ r'.loc = r.loc ∧ r'.used = r.used ∧ (∀ p, bitAt r'.trk.bits p = bitAt r.trk.bits p) ∧
      (∀ x, r'.backed x = true ↔ r.backed x = true ∧ ¬ ∃ c ∈ new, c.ok = true ∧ c.Has x) ∧
      r'.freeBacked + okSum new = r.freeBacked ∧ r'.totalUnbacked = r.totalUnbacked + okSum new := by
  intro m
  induction m with
  | zero =>
    intro i r L released calls hm hi k hs
    unfold unbackLoop
    rw [dif_neg (by omega)]
    refine ⟨r, [], by simp [okSum], k, ⟨by simp, by intro x h1 h2; omega, List.Pairwise.nil, ?_⟩, rfl, rfl,
      fun _ => rfl, by simp, by simp [okSum], by simp [okSum]⟩
    rw [show H - i = 0 by omega]; rfl
  | succ m ih =>
    intro i r L released calls hm hi k hs
    unfold unbackLoop
    by_cases hiH : i < H
    · rw [dif_pos hiH]
      cases hsi : sh i with
      | false =>
        rw [if_neg (by simp)]
        obtain ⟨r', new, e, k', c', rest⟩ := ih (i + 1) r L released calls (by omega) (by omega) k
          (fun x h1 h2 => hs x (by omega) h2)
        refine ⟨r', new, e, k', ⟨?_, ?_, c'.sorted, ?_⟩, rest⟩
        · intro c hc
          have := c'.inside c hc
          exact ⟨by omega, this.2⟩
        · intro x h1 h2 h3
          by_cases ex : x = i
          · rw [ex, hsi] at h3; exact absurd h3 (by simp)
          · exact c'.all x (by omega) h2 h3
        · rw [c'.sum, show H - i = 1 + (H - (i + 1)) by omega, cnt_add, cnt_one, hsi]; simp
      | true =>
        rw [if_pos rfl]
        obtain ⟨j1, j2, j3, j4⟩ := runEnd_spec H sh (H - i) i (Nat.le_refl _) (by omega)
        have hij : i < runEnd H sh i := by
          rcases Nat.lt_or_ge i (runEnd H sh i) with h | h
          · exact h
          · have : runEnd H sh i = i := by omega
            have h5 := j4 (by omega)
            rw [this, hsi] at h5; exact absurd h5 (by simp)
        simp only []
        revert j1 j2 j3 j4 hij
        generalize runEnd H sh i = j
        intro j1 j2 j3 j4 hij
        obtain ⟨r1, e1, k1, a1, a2, a3, a4, a5, a6⟩ := unbackRun_spec hN k hij j2
          (fun x h1 h2 => hs x h1 (by omega) (j3 x h1 h2)) (ok calls.length)
        rw [e1]
        simp only []
        rw [dif_pos hij]
        generalize ok calls.length = o at *
        obtain ⟨r', new, e, k', c', b1, b2, b3, b4, b5, b6⟩ := ih j r1 L (if o then released + (j - i) else released)
          (calls ++ [⟨i, j - i, o⟩]) (by omega) j2 k1 (by
            intro x h1 h2 h3
            have := hs x (by omega) h2 h3
            rw [R.empty] at this ⊢
            rw [a2, a4, if_neg (by omega)]; exact this)
        refine ⟨r', ⟨i, j - i, o⟩ :: new, ?_, k', ⟨?_, ?_, ?_, ?_⟩, by rw [b1, a1], by rw [b2, a2],
          fun p => by rw [b3, a3], ?_, ?_, ?_⟩
        · rw [e, okSum_cons]
          have : (if o = true then released + (j - i) else released) + okSum new =
            released + ((if o = true then j - i else 0) + okSum new) := by
            cases o <;> simp <;> omega
          rw [this]; simp
        · intro c hc
          rcases List.mem_cons.1 hc with hc | hc
          · subst hc
            refine ⟨Nat.le_refl _, ?_, ?_, ?_⟩
            · show 0 < j - i; omega
            · show i + (j - i) ≤ H; omega
            · rintro x ⟨h1, h2⟩
              exact j3 x h1 (by simp only [] at h2 h1; omega)
          · have := c'.inside c hc
            exact ⟨by omega, this.2⟩
        · intro x h1 h2 h3
          by_cases hx : x < j
          · exact ⟨_, List.mem_cons_self, h1, by simp only []; omega⟩
          · obtain ⟨c, hc, hh⟩ := c'.all x (by omega) h2 h3
            exact ⟨c, List.mem_cons_of_mem _ hc, hh⟩
        · rw [List.pairwise_cons]
          refine ⟨?_, c'.sorted⟩
          intro c hc
          have h1 := c'.inside c hc
          show i + (j - i) < c.i
          by_cases ej : c.i = j
          · have := h1.2.2.2 j ⟨by omega, by omega⟩
            rw [j4 (by omega)] at this; exact absurd this (by simp)
          · omega
        · rw [List.map_cons, List.sum_cons, c'.sum, show H - i = (j - i) + (H - j) by omega, cnt_add,
            cnt_true (f := sh) (a := i) (fun x h1 h2 => j3 x h1 (by omega)), show i + (j - i) = j by omega]
        · intro x
          rw [b4, a4]
          constructor
          · rintro ⟨h1, h2⟩
            by_cases hc : o = true ∧ i ≤ x ∧ x < j
            · rw [if_pos hc] at h1; exact absurd h1 (by simp)
            · rw [if_neg hc] at h1
              refine ⟨h1, ?_⟩
              rintro ⟨c, hm, ho, hh⟩
              rcases List.mem_cons.1 hm with hm | hm
              · subst hm
                have := hh.1; have := hh.2
                simp only [] at *
                exact hc ⟨ho, by omega, by omega⟩
              · exact h2 ⟨c, hm, ho, hh⟩
          · rintro ⟨h1, h2⟩
            refine ⟨?_, ?_⟩
            · rw [if_neg]
              · exact h1
              · rintro ⟨ho, h3, h4⟩
                exact h2 ⟨_, List.mem_cons_self, ho, h3, by simp only []; omega⟩
            · rintro ⟨c, hm, ho, hh⟩
              exact h2 ⟨c, List.mem_cons_of_mem _ hm, ho, hh⟩
        · rw [okSum_cons]; simp only []; omega
        · rw [okSum_cons]; simp only []; omega
    · exact ih i r L released calls (by omega) hi k hs |> fun h => by
        unfold unbackLoop at h; exact h

/-- What a `MaybeGet` of a region does. -/
theorem maybeGet_fail {r : R} {n : Nat} (h : r.trk.longestFree < n) : maybeGet H N r n = some (r, none) := by
  unfold maybeGet; rw [if_pos h]

theorem maybeGet_spec (hN : 0 < N) {r : R} {L : List (Nat × Nat)} (k : K H N r L) {n : Nat} (hn : 0 < n)
    (hfit : n ≤ r.trk.longestFree) :
    ∃ r' i rel len, maybeGet H N r n = some (r', some (r.loc * N + i, rel)) ∧ K H N r' ((i, n) :: L) ∧
      BestFit (bitAt r.trk.bits) (H * N) n i len ∧ r'.loc = r.loc ∧
      (∀ p, bitAt r'.trk.bits p = if i ≤ p ∧ p < i + n then true else bitAt r.trk.bits p) ∧
      (∀ x, r'.backed x = true ↔ r.backed x = true ∨ Touch N i n x) ∧
      (rel = true ↔ ∃ x, Touch N i n x ∧ r.backed x = false) ∧ r'.freeBacked ≤ r.freeBacked := by
  obtain ⟨t, i, len, e, bf, hbits, hex, hu, ha⟩ := findAndMark_spec k.good.exact k.good.allocs_le hn hfit
  have hfr : Free (bitAt r.trk.bits) (H * N) i n := by
    have := bf.run.free; have := bf.fits
    exact ⟨by have := bf.run.free.1; omega, fun j h1 h2 => bf.run.free.2 j h1 (by omega)⟩
  have u0 : U H N { r with trk := t } (bitAt r.trk.bits) := ⟨k.u.used, k.u.bk, k.u.nb, k.u.fb⟩
  obtain ⟨r', rel, e', u', f1, f2, f3, f4, f5, f6⟩ := inc_spec hN n n i { r with trk := t } _ false (Nat.le_refl _) u0
    hfr.1 hfr.2
  unfold maybeGet
  rw [if_neg (by omega), if_pos hn, e]
  simp only []
  rw [e']
  simp only [] at f1 f2 f4 f5 f6
  refine ⟨r', i, rel, len, rfl, ⟨?_, ?_⟩, bf, f1, ?_, f4, ?_, f6⟩
  · rw [f2]; exact k.good.add hn hfr hbits hex hu ha
  · rw [f2]; exact u'.congr hbits
  · rw [f2]; exact hbits
  · rw [f5]; simp

/-- What a `Put` of a live run does. -/
theorem put_spec (hN : 0 < N) {r : R} {L : List (Nat × Nat)} (k : K H N r L) {i n : Nat} (hm : (i, n) ∈ L)
    (release : Bool) (ok : Nat → Bool) :
    ∃ r' calls sh, put H N r (r.loc * N + i) n release ok = some (r', calls) ∧ K H N r' (L.erase (i, n)) ∧
      r'.loc = r.loc ∧ (∀ p, bitAt r'.trk.bits p = if i ≤ p ∧ p < i + n then false else bitAt r.trk.bits p) ∧
      (∀ x, sh x = true ↔ Touch N i n x ∧ r'.used x = 0) ∧
      (release = true → Calls H sh 0 calls) ∧ (release = false → calls = []) ∧
      (∀ x, r'.backed x = true ↔ r.backed x = true ∧ ¬ ∃ c ∈ calls, c.ok = true ∧ c.Has x) ∧
      r.freeBacked ≤ r'.freeBacked := by
  have hin := k.good.inside _ hm
  simp only [] at hin
  obtain ⟨t, e, hbits, hex, hu, ha⟩ := unmark_spec k.good.exact (k.good.pos hm) hin.1 hin.2 (k.good.live_set hm)
  have g' := k.good.remove hm hbits hex hu ha
  have u0 : U H N { r with trk := t } (bitAt r.trk.bits) := ⟨k.u.used, k.u.bk, k.u.nb, k.u.fb⟩
  obtain ⟨r1, sh, e1, u1, f1, f2, f3, f4, f5, f6, f7⟩ := decLoop_spec hN n n i { r with trk := t } _ (fun _ => false)
    (Nat.le_refl _) u0 hin.2 (k.good.live_set hm)
  simp only [] at f1 f2 f4 f6
  have k1 : K H N r1 (L.erase (i, n)) := ⟨by rw [f2]; exact g', by rw [f2]; exact u1.congr hbits⟩
  have hsh : ∀ x, sh x = true ↔ Touch N i n x ∧ r1.used x = 0 := by intro x; rw [f5]; simp
  unfold put
  rw [show subCount (r.loc * N + i) (r.loc * N) = some i by unfold subCount; rw [if_pos (by omega)]; congr 1; omega]
  simp only []
  rw [e]
  simp only []
  rw [e1]
  simp only []
  cases release with
  | false =>
    rw [if_neg (by simp)]
    exact ⟨r1, [], sh, rfl, k1, f1, by rw [f2]; exact hbits, hsh, by simp, by simp, by intro x; rw [f4]; simp, f6⟩
  | true =>
    rw [if_pos rfl]
    have htouch : ∀ x, Touch N i n x → x < H := by
      rintro x ⟨p, h1, h2, h3⟩
      rw [← h3]
      exact index_lt (n := 1) (by omega) (by omega)
    have hempty : ∀ x, 0 ≤ x → x < H → sh x = true → r1.empty x = true := by
      intro x _ hx hs
      have h1 := (hsh x).1 hs
      rw [R.empty, f4, h1.2]
      obtain ⟨p, p1, p2, p3⟩ := h1.1
      have h0 : 0 < r.used x := by
        rw [k.u.used x hx]
        have hb := block hN p
        rw [p3] at hb
        exact (cnt_pos_iff).2 ⟨p, hb.1, hb.2, k.good.live_set hm p p1 p2⟩
      rw [k.u.bk x hx h0]; rfl
    obtain ⟨r2, new, e2, k2, c2, b1, b2, b3, b4, b5, b6⟩ := unbackLoop_spec hN sh ok H 0 r1 _ 0 [] (by omega) (by omega)
      k1 hempty
    unfold unbackHugepages
    rw [e2]
    refine ⟨r2, new, sh, by simp, k2, by rw [b1, f1], fun p => by rw [b3, f2]; exact hbits p, ?_, fun _ => c2, by simp,
      ?_, ?_⟩
    · intro x; rw [b2]; exact hsh x
    · intro x; rw [b4, f4]
    · -- the hugepages emptied were counted in before they were released
      have hle : okSum new ≤ (new.map Call.n).sum := by
        clear e2 c2 b4 b5 b6
        induction new with
        | nil => simp [okSum]
        | cons c l ih =>
          rw [okSum_cons, List.map_cons, List.sum_cons]
          split <;> omega
      have hsum := c2.sum
      -- all hugepages selected are empty now and were not empty before
      have hcount : cnt sh 0 H + r.freeBacked ≤ r1.freeBacked := by
        rw [k.u.fb, u1.fb]
        unfold cnt
        generalize List.range' 0 H = l at *
        have key : ∀ x ∈ l, (sh x = true → r.empty x = false) := by
          intro x _ hs
          have h1 := (hsh x).1 hs
          have hx := htouch x h1.1
          obtain ⟨p, p1, p2, p3⟩ := h1.1
          have h0 : 0 < r.used x := by
            rw [k.u.used x hx]
            have hb := block hN p
            rw [p3] at hb
            exact (cnt_pos_iff).2 ⟨p, hb.1, hb.2, k.good.live_set hm p p1 p2⟩
          rw [R.empty, Bool.and_eq_false_iff]; right; simp; omega
        have key2 : ∀ x ∈ l, sh x = true → r1.empty x = true := by
          intro x _ hs
          exact hempty x (by omega) (htouch x ((hsh x).1 hs).1) hs
        have key3 : ∀ x ∈ l, r.empty x = true → r1.empty x = true := by
          intro x _ hr
          rw [R.empty, Bool.and_eq_true] at hr
          rw [R.empty, f4, Bool.and_eq_true]
          refine ⟨hr.1, ?_⟩
          have h0 : r.used x = 0 := by simpa using hr.2
          by_cases ht : Touch N i n x
          · have hx := htouch x ht
            obtain ⟨p, p1, p2, p3⟩ := ht
            have hb := block hN p
            rw [p3] at hb
            have := (cnt_pos_iff (a := x * N) (n := N)).2 ⟨p, hb.1, hb.2, k.good.live_set hm p p1 p2⟩
            rw [← k.u.used x hx] at this; omega
          · rw [f7 x ht]; exact hr.2
        clear e2 c2 b4 b5 b6 hsum
        induction l with
        | nil => simp
        | cons x l ih =>
          have := ih (fun y hy => key y (by simp [hy])) (fun y hy => key2 y (by simp [hy]))
            (fun y hy => key3 y (by simp [hy]))
          have a1 := key x (by simp)
          have a2 := key2 x (by simp)
          have a3 := key3 x (by simp)
          rw [List.countP_cons, List.countP_cons, List.countP_cons]
          cases hx : sh x <;> cases hr : r.empty x <;> cases hr1 : r1.empty x <;> simp [hx, hr, hr1] at a1 a2 a3 ⊢ <;> omega
      rw [show H - 0 = H from rfl] at hsum
      omega

/-! ### `Release` -/

/-- The selection stops at the first prefix of the order that offers enough. -/
theorem selectLoop_spec (r : R) (toRelease : Nat) : ∀ (is : List Nat) (target : Nat) (sh : Nat → Bool),
    target * N < toRelease →
    ∃ A B, is = A ++ B ∧
      (∀ x, selectLoop N r toRelease is target sh x = true ↔ sh x = true ∨ (x ∈ A ∧ r.empty x = true)) ∧
      (B = [] ∨ toRelease ≤ (target + A.countP r.empty) * N) ∧
      (target + A.countP r.empty - 1) * N < toRelease := by
  intro is
  induction is with
  | nil =>
    intro target sh h
    refine ⟨[], [], rfl, by intro x; simp [selectLoop], Or.inl rfl, ?_⟩
    have := Nat.mul_le_mul_right N (show target + List.countP r.empty [] - 1 ≤ target by simp)
    omega
  | cons i is ih =>
    intro target sh h
    unfold selectLoop
    simp only []
    have hc : (r.backed i && r.used i == 0) = r.empty i := rfl
    rw [hc]
    cases hr : r.empty i with
    | true =>
      simp only [if_true]
      by_cases hd : toRelease ≤ (target + 1) * N
      · rw [if_pos hd]
        refine ⟨[i], is, rfl, ?_, Or.inr ?_, ?_⟩
        · intro x
          by_cases e : x = i
          · subst e; simp [upd_same, hr]
          · simp [upd_ne _ _ e, e]
        · simpa [hr] using hd
        · simpa [hr] using h
      · rw [if_neg hd]
        obtain ⟨A, B, e, h1, h2, h3⟩ := ih (target + 1) (upd sh i true) (by omega)
        refine ⟨i :: A, B, by rw [e]; rfl, ?_, ?_, ?_⟩
        · intro x
          rw [h1]
          by_cases ex : x = i
          · subst ex; simp [upd_same, hr]
          · simp [upd_ne _ _ ex, ex]
        · rw [List.countP_cons, if_pos hr]
          rw [show target + (List.countP r.empty A + 1) = target + 1 + List.countP r.empty A by omega]
          exact h2
        · rw [List.countP_cons, if_pos hr]
          rw [show target + (List.countP r.empty A + 1) = target + 1 + List.countP r.empty A by omega]
          exact h3
    | false =>
      simp only [Bool.false_eq_true, if_false]
      rw [if_neg (by omega)]
      obtain ⟨A, B, e, h1, h2, h3⟩ := ih target sh h
      refine ⟨i :: A, B, by rw [e]; rfl, ?_, ?_, ?_⟩
      · intro x
        rw [h1]
        constructor
        · rintro (a | ⟨a, b⟩)
          · exact Or.inl a
          · exact Or.inr ⟨by simp [a], b⟩
        · rintro (a | ⟨a, b⟩)
          · exact Or.inl a
          · rcases List.mem_cons.1 a with c | c
            · rw [c, hr] at b; exact absurd b (by simp)
            · exact Or.inr ⟨c, b⟩
      · rw [List.countP_cons, if_neg (by simp [hr])]; exact h2
      · rw [List.countP_cons, if_neg (by simp [hr])]; exact h3

theorem selectLoop_none {r : R} {toRelease : Nat} {is : List Nat} (h : ∀ x ∈ is, r.empty x = false) (target : Nat)
    (sh : Nat → Bool) : selectLoop N r toRelease is target sh = sh := by
  induction is with
  | nil => rfl
  | cons i is ih =>
    unfold selectLoop
    have hc : (r.backed i && r.used i == 0) = r.empty i := rfl
    simp only [hc, h i (by simp), Bool.false_eq_true, if_false]
    split
    · rfl
    · exact ih (fun x hx => h x (by simp [hx]))

/-- The order in which `Release` looks at the hugepages. -/
def relOrder (H : Nat) (adaptive : Bool) : List Nat := if adaptive then (List.range H).reverse else List.range H

theorem relOrder_perm (H : Nat) (adaptive : Bool) : (relOrder H adaptive).Perm (List.range H) := by
  unfold relOrder
  cases adaptive with
  | true => exact List.reverse_perm _
  | false => exact List.Perm.refl _

theorem range_pairwise (H : Nat) : (List.range H).Pairwise (· < ·) := by
  exact List.pairwise_lt_range

theorem relOrder_sorted (H : Nat) (adaptive : Bool) :
    (relOrder H adaptive).Pairwise (fun x y => if adaptive then y < x else x < y) := by
  unfold relOrder
  cases adaptive with
  | true =>
    simp only [if_true]
    rw [List.pairwise_reverse]
    exact range_pairwise H
  | false =>
    simp only [Bool.false_eq_true, if_false]
    exact range_pairwise H

theorem ceil_bounds {N c d fb : Nat} (hN : 0 < N) (h1 : c ≤ fb) (h2 : c = fb ∨ min d (fb * N) ≤ c * N)
    (h3 : 0 < c → (c - 1) * N < min d (fb * N)) : c = min (hlFromPages N d) fb := by
  have hb := Nat.div_add_mod d N
  have hm := Nat.mod_lt d hN
  rw [Nat.mul_comm] at hb
  have hdiv : ∀ x, x * N < d ↔ x < hlFromPages N d := by
    intro x
    unfold hlFromPages
    constructor
    · intro h
      rcases Nat.lt_or_ge x (d / N) with a | a
      · omega
      · have := Nat.mul_le_mul_right N a
        by_cases e : x = d / N
        · subst e; rw [if_pos (by omega)]; omega
        · have := block_lt (show d / N < x by omega) N
          omega
    · intro h
      by_cases e : d % N = 0
      · rw [if_neg (by simp [e])] at h
        have := block_lt (show x < d / N by omega) N
        omega
      · rw [if_pos e] at h
        have := Nat.mul_le_mul_right N (show x ≤ d / N by omega)
        omega
  have hmul : ∀ a b, a * N < b * N ↔ a < b := fun a b => Nat.mul_lt_mul_right hN
  have hc : c ≤ hlFromPages N d := by
    rcases Nat.eq_zero_or_pos c with h | h
    · omega
    · have := h3 h
      have := (hdiv (c - 1)).1 (by omega)
      omega
  rcases h2 with h2 | h2
  · omega
  · rcases Nat.le_total d (fb * N) with a | a
    · have : ¬ c < hlFromPages N d := fun h => by have := (hdiv c).2 h; omega
      omega
    · have : ¬ c < fb := fun h => by have := (hmul c fb).2 h; omega
      omega

/-- What `Release` does: `sel` are the hugepages chosen, the first ones in the order of the search that are backed and
empty, as many as are needed for `desired` pages or all of them. -/
theorem release_spec (hN : 0 < N) {r : R} {L : List (Nat × Nat)} (k : K H N r L) (desired : Nat) (adaptive : Bool)
    (ok : Nat → Bool) :
    ∃ r' calls sel, release H N r desired adaptive ok = some (r', okSum calls, calls) ∧ K H N r' L ∧
      Calls H sel 0 calls ∧ r'.loc = r.loc ∧ r'.used = r.used ∧ (∀ p, bitAt r'.trk.bits p = bitAt r.trk.bits p) ∧
      (∀ x, sel x = true → x < H ∧ r.empty x = true) ∧
      (∀ x y, sel x = true → y < H → r.empty y = true → sel y = false → if adaptive then y < x else x < y) ∧
      (calls.map Call.n).sum = min (hlFromPages N desired) r.freeBacked ∧
      (∀ x, r'.backed x = true ↔ r.backed x = true ∧ ¬ ∃ c ∈ calls, c.ok = true ∧ c.Has x) ∧
      r'.freeBacked + okSum calls = r.freeBacked := by
  unfold release
  by_cases h0 : desired = 0
  · rw [if_pos h0]
    subst h0
    refine ⟨r, [], fun _ => false, rfl, k, ⟨by simp, by simp, List.Pairwise.nil, ?_⟩, rfl, rfl, fun _ => rfl, by simp,
      by simp, ?_, by simp, by simp [okSum]⟩
    · rw [cnt_false (fun _ _ _ => rfl)]; rfl
    · simp [hlFromPages]
  · rw [if_neg h0]
    simp only []
    rw [show (if adaptive = true then (List.range H).reverse else List.range H) = relOrder H adaptive from rfl]
    have hperm := relOrder_perm H adaptive
    have hsort := relOrder_sorted H adaptive
    have hfbc : r.freeBacked = (relOrder H adaptive).countP r.empty := by
      rw [k.u.fb, hperm.countP_eq, cnt_range]
    have hmem : ∀ x, x ∈ relOrder H adaptive ↔ x < H := by intro x; rw [hperm.mem_iff, List.mem_range]
    -- the selection
    have hsel : ∃ A B, relOrder H adaptive = A ++ B ∧
        (∀ x, selectLoop N r (min desired (r.freeBacked * N)) (relOrder H adaptive) 0 (fun _ => false) x = true ↔
          x ∈ A ∧ r.empty x = true) ∧ A.countP r.empty = min (hlFromPages N desired) r.freeBacked := by
      by_cases hz : min desired (r.freeBacked * N) = 0
      · have hfb : r.freeBacked = 0 := by
          rcases Nat.eq_zero_or_pos r.freeBacked with h | h
          · exact h
          · have := Nat.mul_pos h hN; omega
        have hnone : ∀ x ∈ relOrder H adaptive, r.empty x = false := by
          intro x hx
          rw [hfb] at hfbc
          have := List.countP_eq_zero.1 hfbc.symm x hx
          simpa using this
        refine ⟨[], relOrder H adaptive, rfl, ?_, by simp [hfb]⟩
        intro x
        rw [selectLoop_none hnone]; simp
      · obtain ⟨A, B, e, h1, h2, h3⟩ := selectLoop_spec (N := N) r (min desired (r.freeBacked * N)) (relOrder H adaptive)
          0 (fun _ => false) (by omega)
        refine ⟨A, B, e, ?_, ?_⟩
        · intro x; rw [h1]; simp
        · rw [Nat.zero_add] at h2 h3
          have hle : A.countP r.empty ≤ r.freeBacked := by
            rw [hfbc, e, List.countP_append]; omega
          apply ceil_bounds hN hle
          · rcases h2 with h2 | h2
            · left; rw [hfbc, e, h2]; simp
            · exact Or.inr h2
          · intro _; exact h3
    obtain ⟨A, B, eAB, hs, hcnt⟩ := hsel
    revert hs
    generalize selectLoop N r (min desired (r.freeBacked * N)) (relOrder H adaptive) 0 (fun _ => false) = sel
    intro hs
    have hAB : ∀ x, x ∈ A → x ∈ relOrder H adaptive := fun x hx => by rw [eAB]; simp [hx]
    obtain ⟨r2, new, e2, k2, c2, b1, b2, b3, b4, b5, b6⟩ := unbackLoop_spec hN sel ok H 0 r L 0 [] (by omega) (by omega) k
      (fun x _ _ hx => ((hs x).1 hx).2)
    unfold unbackHugepages
    rw [e2]
    rw [eAB, List.pairwise_append] at hsort
    refine ⟨r2, new, sel, by simp, k2, c2, b1, b2, b3, ?_, ?_, ?_, b4, b5⟩
    · intro x hx
      have := (hs x).1 hx
      exact ⟨(hmem x).1 (hAB x this.1), this.2⟩
    · intro x y hx hy he hny
      have hxA := ((hs x).1 hx).1
      have hyO := (hmem y).2 hy
      rw [eAB, List.mem_append] at hyO
      rcases hyO with h | h
      · rw [(hs y).2 ⟨h, he⟩] at hny; exact absurd hny (by simp)
      · exact hsort.2.2 x hxA y h
    · rw [c2.sum, ← hcnt, show H - 0 = H from rfl, ← cnt_range, ← hperm.countP_eq, eAB, List.countP_append]
      have e1 : A.countP sel = A.countP r.empty := by
        apply List.countP_congr
        intro x hx; rw [hs]; simp [hx]
      have e3 : B.countP sel = 0 := by
        rw [List.countP_eq_zero]
        intro x hx hc
        have h1 := hsort.2.2 x ((hs x).1 hc).1 x hx
        cases adaptive <;> simp at h1
      omega

end Verif.HugeRegion
