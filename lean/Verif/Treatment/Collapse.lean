import Verif.Treatment.CollapseSpec
import Verif.Treatment.During
/-! C76: which hugepages the kernel is asked to collapse, how often, and what is reported of it. -/
namespace Verif.Treatment
open Verif.Bitmap Verif.RangeTracker Verif.PageTracker Verif.HintedLists Verif.Filler

variable {N : Nat} {mode : Bool} {en unf : Bool} {slow fast : Nat}

/-! ### One treatment -/

theorem errOf_other {n : Nat} : errOf n = .other ↔ [12, 16, 22, 11, 4].contains n = false := by
  unfold errOf
  simp only [List.contains_cons, List.contains_nil, Bool.or_false, Bool.or_eq_false_iff, beq_eq_false_iff_ne]
  by_cases h1 : n = 12
  · simp [h1]
  by_cases h2 : n = 16
  · simp [h2]
  by_cases h3 : n = 22
  · simp [h3]
  by_cases h4 : n = 11
  · simp [h4]
  by_cases h5 : n = 4
  · simp [h5]
  simp [h1, h2, h3, h4, h5]

theorem fails_iff (p : Probe) (hg : good p = false) (e : Err) :
    Fails p e = decide (errOf (if p.released then 0 else p.errno) = e) := by
  cases hr : p.released with
  | true =>
    cases e <;> simp [Fails, hg, hr, errOf]
  | false =>
    simp only [Bool.false_eq_true, if_false]
    cases e with
    | other =>
      rw [Bool.eq_iff_iff]
      simp only [Fails, hg, hr, Bool.not_false, Bool.true_and, Bool.false_or, Bool.not_eq_true', decide_eq_true_eq]
      exact errOf_other.symm
    | noMem => unfold Fails errOf; by_cases h : p.errno = 12 <;> simp [hg, hr, h] <;> (repeat' split) <;> simp_all
    | busy =>
      unfold Fails errOf
      by_cases h : p.errno = 16 <;> simp [hg, hr, h] <;> (repeat' split) <;> simp_all
    | inval =>
      unfold Fails errOf
      by_cases h : p.errno = 22 <;> simp [hg, hr, h] <;> (repeat' split) <;> simp_all
    | again =>
      unfold Fails errOf
      by_cases h : p.errno = 11 <;> simp [hg, hr, h] <;> (repeat' split) <;> simp_all
    | intr =>
      unfold Fails errOf
      by_cases h : p.errno = 4 <;> simp [hg, hr, h] <;> (repeat' split) <;> simp_all

/-- The figures after one more attempt. -/
def bump (t : Stats) (p : Probe) : Stats :=
  { eligible := t.eligible, attempted := t.attempted + 1, succeeded := t.succeeded + (if good p then 1 else 0),
    errors := fun e => t.errors e + (if Fails p e then 1 else 0), timeTotal := t.timeTotal + p.cycles,
    timeMax := max p.cycles t.timeMax }

theorem tryCollapse_eq (t : Stats) (p : Probe) : tryCollapse t p = (bump t p, good p, !p.released) := by
  unfold tryCollapse collapse bump
  cases hg : good p with
  | true =>
    have h1 : p.ok = true ∧ p.released = false := by unfold good at hg; simpa using hg
    have h2 : ∀ e, Fails p e = false := fun e => by cases e <;> simp [Fails, hg]
    simp [h1, h2]
  | false =>
    have h0 := hg
    unfold good at hg
    cases hr : p.released with
    | true =>
      simp only [if_true, Bool.false_eq_true, if_false]
      congr 1
      congr 1
      funext e
      rw [fails_iff p h0, hr]
      simp only [if_true, upd, decide_eq_true_eq]
      by_cases h : e = errOf 0
      · simp [h]
      · rw [if_neg h, if_neg (fun hc => h hc.symm)]; rfl
    | false =>
      have hok : p.ok = false := by rw [hr] at hg; simpa using hg
      simp only [hok, Bool.false_eq_true, if_false]
      congr 1
      congr 1
      funext e
      rw [fails_iff p h0, hr]
      simp only [Bool.false_eq_true, if_false, upd, decide_eq_true_eq]
      by_cases h : e = errOf p.errno
      · simp [h]
      · rw [if_neg h, if_neg (fun hc => h hc.symm)]; rfl

/-- What is recorded of a hugepage, given whether an earlier attempt was slow. -/
def recOf (N : Nat) (en unf back : Bool) (p : Probe) : Rec :=
  if p.huge = some false then
    let t := wants en unf p && !back
    ⟨⟨p.id, t && good p, p.swapped, p.stale, p.unbacked⟩, en && !t, en && back, t && !p.released⟩
  else ⟨⟨p.id, true, false, false, Bitmap.empty N⟩, false, false, false⟩

theorem treatOne_eq (t : Stats) (p : Probe) : treatOne N en unf slow t p =
    (if wants en unf p && !decide (slow < t.timeMax) then bump t p else t, recOf N en unf (decide (slow < t.timeMax)) p) := by
  unfold treatOne recOf
  have hh : p.huge.getD true = !decide (p.huge = some false) := by
    cases p.huge with
    | none => rfl
    | some b => cases b <;> rfl
  simp only [hh]
  by_cases h : p.huge = some false
  · rw [if_neg (by simp [h]), if_pos h]
    have hw : wants en unf p = (en && (unf || (decide (p.nSwapped < 128) && decide (p.nUnbacked < 64)))) := by
      unfold wants; simp [h]
    rw [hw, tryCollapse_eq]
    unfold kMaxSwapped kMaxUnbacked
    generalize (unf || (decide (p.nSwapped < 128) && decide (p.nUnbacked < 64))) = q
    have hgt : decide (t.timeMax > slow) = decide (slow < t.timeMax) := rfl
    rw [hgt]
    generalize decide (slow < t.timeMax) = b
    cases en <;> cases b <;> cases q <;> simp
  · rw [if_pos (by simp [h]), if_neg h]
    have hw : wants en unf p = false := by unfold wants; simp [h]
    simp [hw]

def figAdd (t : Stats) (T : List Probe) : Stats := T.foldl bump t

theorem tried_cons (p : Probe) (L : List Probe) : tried en unf slow (p :: L) =
    if wants en unf p then (if slow < p.cycles then [p] else p :: tried en unf slow L) else tried en unf slow L := by
  unfold tried
  by_cases h : wants en unf p = true
  · rw [List.filter_cons_of_pos h, if_pos h]
    rw [through]
    simp only [decide_eq_true_eq]
  · rw [List.filter_cons_of_neg h, if_neg h]

/-- Some earlier attempt was slow. -/
def slowIn (en unf : Bool) (slow : Nat) (A : List Probe) : Bool := A.any (fun q => wants en unf q && decide (slow < q.cycles))

theorem loop_stats (L : List Probe) : ∀ (t : Stats), (treatLoop N en unf slow t L).1 =
    if slow < t.timeMax then t else figAdd t (tried en unf slow L) := by
  induction L with
  | nil =>
    intro t
    show t = if slow < t.timeMax then t else t
    split <;> rfl
  | cons p L ih =>
    intro t
    show (treatLoop N en unf slow (treatOne N en unf slow t p).1 L).1 = _
    rw [ih, treatOne_eq, tried_cons]
    by_cases hs : slow < t.timeMax
    · simp [hs]
    · by_cases hw : wants en unf p = true
      · simp only [hw, hs, decide_false, Bool.not_false, Bool.and_self, if_true, if_false]
        have hm : (bump t p).timeMax = max p.cycles t.timeMax := rfl
        by_cases hc : slow < p.cycles
        · rw [if_pos (by rw [hm]; omega), if_pos hc]; rfl
        · rw [if_neg (by rw [hm]; omega), if_neg hc]; rfl
      · simp [Bool.eq_false_iff.2 hw, hs]

theorem loop_recs (L : List Probe) : ∀ (t : Stats) (i : Nat) (p : Probe), L[i]? = some p →
    (treatLoop N en unf slow t L).2[i]? =
      some (recOf N en unf (decide (slow < t.timeMax) || slowIn en unf slow (L.take i)) p) := by
  induction L with
  | nil => intro t i p h; simp at h
  | cons q L ih =>
    intro t i p h
    show ((treatOne N en unf slow t q).2 :: (treatLoop N en unf slow (treatOne N en unf slow t q).1 L).2)[i]? = _
    cases i with
    | zero =>
      simp only [List.getElem?_cons_zero, Option.some.injEq] at h
      subst h
      rw [List.getElem?_cons_zero, treatOne_eq]
      simp [slowIn]
    | succ i =>
      rw [List.getElem?_cons_succ] at h ⊢
      rw [ih _ _ _ h, treatOne_eq]
      congr 2
      rw [List.take_succ_cons]
      unfold slowIn
      rw [List.any_cons]
      by_cases hs : slow < t.timeMax
      · simp [hs]
      · by_cases hw : wants en unf q = true
        · simp only [hw, hs, decide_false, Bool.not_false, Bool.and_self, if_true, Bool.false_or, Bool.true_and]
          have hm : (bump t q).timeMax = max q.cycles t.timeMax := rfl
          rw [hm]
          by_cases hc : slow < q.cycles
          · have : slow < max q.cycles t.timeMax := by omega
            simp [hc, this]
          · have : ¬ slow < max q.cycles t.timeMax := by omega
            simp [hc, this]
        · simp [Bool.eq_false_iff.2 hw, hs]

theorem loop_length (L : List Probe) : ∀ (t : Stats), (treatLoop N en unf slow t L).2.length = L.length := by
  induction L with
  | nil => intro t; rfl
  | cons q L ih => intro t; show ((treatOne N en unf slow t q).2 :: (treatLoop N en unf slow (treatOne N en unf slow t q).1 L).2).length = _; simp [ih]

theorem figAdd_eq (T : List Probe) : ∀ t : Stats, figAdd t T =
    { eligible := t.eligible, attempted := t.attempted + T.length, succeeded := t.succeeded + (T.filter good).length,
      errors := fun e => t.errors e + (T.filter (fun p => Fails p e)).length, timeTotal := t.timeTotal + (T.map Probe.cycles).sum,
      timeMax := max t.timeMax ((T.map Probe.cycles).foldr max 0) } := by
  induction T with
  | nil => intro t; simp [figAdd]
  | cons p T ih =>
    intro t
    show figAdd (bump t p) T = _
    rw [ih]
    unfold bump
    simp only [List.length_cons, List.map_cons, List.sum_cons, List.foldr_cons, Stats.mk.injEq]
    refine ⟨trivial, by omega, ?_, ?_, by omega, by omega⟩
    · by_cases h : good p = true
      · rw [List.filter_cons_of_pos h]; simp only [h, if_true, List.length_cons]; omega
      · rw [List.filter_cons_of_neg h]; simp only [h]; simp
    · funext e
      rw [List.filter_cons]
      by_cases h : Fails p e = true
      · simp only [h, if_true, List.length_cons]; omega
      · simp only [h]; simp

/-- C76: the figures of a treatment are those of the attempts that are to be made: on the hugepages to be collapsed, in
order, stopping after the first attempt that takes too long. -/
theorem treat_figures (L : List Probe) : (treat N en unf slow L).1 = figures (if en then L.length else 0) (tried en unf slow L) := by
  unfold treat
  rw [loop_stats, figAdd_eq]
  simp [figures, Stats.zero]

/-- C76: attempts are successes and failures. -/
theorem attempts_add (eligible : Nat) (T : List Probe) : (figures eligible T).attempted =
    (figures eligible T).succeeded + (errKinds.map (figures eligible T).errors).sum := by
  show T.length = (T.filter good).length + (errKinds.map (fun e => (T.filter (fun p => Fails p e)).length)).sum
  simp only [errKinds, List.map_cons, List.map_nil, List.sum_cons, List.sum_nil]
  induction T with
  | nil => rfl
  | cons p T ih =>
    simp only [List.filter_cons, List.length_cons]
    by_cases hg : good p = true
    · have h2 : ∀ e, Fails p e = false := fun e => by cases e <;> simp [Fails, hg]
      simp only [hg, h2, if_true, Bool.false_eq_true, if_false, List.length_cons]
      omega
    · have hg : good p = false := Bool.eq_false_iff.2 hg
      have h2 : ∀ e, Fails p e = decide (errOf (if p.released then 0 else p.errno) = e) := fun e => fails_iff p hg e
      simp only [hg, h2, Bool.false_eq_true, if_false]
      cases h : errOf (if p.released then 0 else p.errno) <;> simp <;> omega

/-- C76: what is recorded of each hugepage, in the order of selection: it counts as backed by a huge page if the
kernel's flags do not say otherwise or it was collapsed; the kernel is asked to collapse it exactly if it is to be
collapsed, none of its pages was returned meanwhile, and no earlier attempt of this treatment took too long; hugepages
not tried though collapsing is on are marked skipped, with the reason. -/
theorem treat_records (L : List Probe) : (treat N en unf slow L).2.length = L.length ∧
    ∀ i p, L[i]? = some p → ∃ r, (treat N en unf slow L).2[i]? = some r ∧ r.obs.id = p.id ∧
      (r.asked = true ↔ wants en unf p = true ∧ p.released = false ∧ ∀ q ∈ L.take i, wants en unf q = true → q.cycles ≤ slow) ∧
      (r.obs.backed = true ↔ p.huge ≠ some false ∨ (r.asked = true ∧ p.ok = true)) ∧
      (r.skipped = true ↔ en = true ∧ p.huge = some false ∧
        ¬ (wants en unf p = true ∧ ∀ q ∈ L.take i, wants en unf q = true → q.cycles ≤ slow)) ∧
      (r.skippedBackoff = true ↔ en = true ∧ p.huge = some false ∧ ∃ q ∈ L.take i, wants en unf q = true ∧ slow < q.cycles) ∧
      (p.huge = some false → r.obs.swapped = p.swapped ∧ r.obs.stale = p.stale ∧ r.obs.unbacked = p.unbacked) := by
  refine ⟨loop_length L _, fun i p h => ?_⟩
  have h1 := loop_recs (N := N) (en := en) (unf := unf) (slow := slow) L { Stats.zero with eligible := if en then L.length else 0 } i p h
  refine ⟨_, h1, ?_⟩
  have h0 : decide (slow < (Stats.mk (if en then L.length else 0) 0 0 (fun _ => 0) 0 0).timeMax) = false := by simp
  have hz : ({ Stats.zero with eligible := if en then L.length else 0 } : Stats) = ⟨if en then L.length else 0, 0, 0, fun _ => 0, 0, 0⟩ := rfl
  rw [hz, h0, Bool.false_or]
  have hb : slowIn en unf slow (L.take i) = true ↔ ∃ q ∈ L.take i, wants en unf q = true ∧ slow < q.cycles := by
    unfold slowIn
    simp only [List.any_eq_true, Bool.and_eq_true, decide_eq_true_eq]
  have hn : slowIn en unf slow (L.take i) = false ↔ ∀ q ∈ L.take i, wants en unf q = true → q.cycles ≤ slow := by
    rw [Bool.eq_false_iff, ne_eq, hb]
    constructor
    · intro h q hq hw
      apply Classical.byContradiction
      intro hc
      exact h ⟨q, hq, hw, by omega⟩
    · rintro h ⟨q, hq, hw, hc⟩
      have := h q hq hw
      omega
  rw [← hb, ← hn]
  generalize slowIn en unf slow (L.take i) = b
  unfold recOf
  by_cases hh : p.huge = some false
  · rw [if_pos hh]
    unfold good
    cases en <;> cases b <;> cases wants _ unf p <;> cases p.released <;> cases p.ok <;> simp [hh]
  · rw [if_neg hh]
    have hw : wants en unf p = false := by unfold wants; simp [hh]
    simp [hh, hw]

/-! ### Back-off -/

/-- C76: a treatment that backs off, or in which collapsing is not wanted, tries nothing; one that tries sets the delay
by its slowest attempt. -/
theorem pass_spec (b : B) (e : Ev) :
    (pass N slow fast b e.want e.unfiltered e.probes).2.2 = (e.want && decide (b.delay ≤ b.cur + 1)) ∧
    (pass N slow fast b e.want e.unfiltered e.probes).1.cur =
      (if e.want then (if b.cur + 1 < b.delay then b.cur + 1 else 0) else b.cur) ∧
    (pass N slow fast b e.want e.unfiltered e.probes).1.skips = b.skips + (if e.want && decide (b.cur + 1 < b.delay) then 1 else 0) ∧
    (pass N slow fast b e.want e.unfiltered e.probes).1.delay =
      (let en := e.want && decide (b.delay ≤ b.cur + 1)
       let T := tried en e.unfiltered slow e.probes
       if T = [] then b.delay
       else if ∃ p ∈ T, slow < p.cycles then min (b.delay * 2) 128
       else if ∀ p ∈ T, p.cycles < fast then max (b.delay / 2) 1 else b.delay) ∧
    (pass N slow fast b e.want e.unfiltered e.probes).1.total =
      b.total.add (figures (if (e.want && decide (b.delay ≤ b.cur + 1)) then e.probes.length else 0)
        (tried (e.want && decide (b.delay ≤ b.cur + 1)) e.unfiltered slow e.probes)) := by
  have hf : ∀ (T : List Probe), slow < (T.map Probe.cycles).foldr max 0 ↔ ∃ p ∈ T, slow < p.cycles := by
    intro T
    induction T with
    | nil => simp
    | cons p T ih =>
      simp only [List.map_cons, List.foldr_cons, List.mem_cons, exists_eq_or_imp, ← ih]
      omega
  have hl : ∀ (T : List Probe), T ≠ [] → ((T.map Probe.cycles).foldr max 0 < fast ↔ ∀ p ∈ T, p.cycles < fast) := by
    intro T
    induction T with
    | nil => simp
    | cons p T ih =>
      intro _
      simp only [List.map_cons, List.foldr_cons, List.forall_mem_cons]
      by_cases ht : T = []
      · subst ht; simp
      · rw [← ih ht]; omega
  have hd : ∀ (b' : B) (c : Stats) (T : List Probe) (el : Nat), c = figures el T →
      (if c.attempted > 0 then updateDelay slow fast c.timeMax b' else b') =
        { b' with
          delay := if T = [] then b'.delay
            else if ∃ p ∈ T, slow < p.cycles then min (b'.delay * 2) 128
            else if ∀ p ∈ T, p.cycles < fast then max (b'.delay / 2) 1 else b'.delay } := by
    intro b' c T el hc
    subst hc
    show (if T.length > 0 then updateDelay slow fast ((T.map Probe.cycles).foldr max 0) b' else b') = _
    by_cases ht : T = []
    · subst ht; simp
    · rw [if_pos (List.length_pos_iff.2 ht), if_neg ht]
      unfold updateDelay kMaxDelay
      by_cases h1 : slow < (T.map Probe.cycles).foldr max 0
      · rw [if_pos h1, if_pos ((hf T).1 h1)]
      · rw [if_neg h1, if_neg (fun h => h1 ((hf T).2 h))]
        by_cases h2 : (T.map Probe.cycles).foldr max 0 < fast
        · rw [if_pos h2, if_pos ((hl T ht).1 h2)]
        · rw [if_neg h2, if_neg (fun h => h2 ((hl T ht).2 h))]
  unfold pass shouldBackoff
  cases hw : e.want with
  | false =>
    simp only [Bool.false_eq_true, if_false, Bool.false_and]
    rw [hd _ _ _ _ (treat_figures (N := N) e.probes), treat_figures]
    exact ⟨trivial, rfl, rfl, rfl, rfl⟩
  | true =>
    by_cases hc : b.cur + 1 < b.delay
    · have h2 : decide (b.delay ≤ b.cur + 1) = false := by simp; omega
      simp only [if_true, hc, Bool.true_and, h2, Bool.not_true, decide_true]
      rw [hd _ _ _ _ (treat_figures (N := N) e.probes), treat_figures]
      exact ⟨trivial, rfl, rfl, rfl, rfl⟩
    · have h2 : decide (b.delay ≤ b.cur + 1) = true := by simp; omega
      simp only [if_true, Bool.true_and, h2, Bool.not_false, Bool.false_eq_true, if_false, hc, decide_false]
      rw [hd _ _ _ _ (treat_figures (N := N) e.probes), treat_figures]
      exact ⟨trivial, rfl, rfl, rfl, rfl⟩

theorem tried_off (L : List Probe) : tried false unf slow L = [] := by
  unfold tried
  have : L.filter (wants false unf) = [] := List.filter_eq_nil_iff.2 (fun p _ => by simp [wants])
  rw [this]; rfl

theorem pass_off (b : B) (e : Ev) (h : (pass N slow fast b e.want e.unfiltered e.probes).2.2 = false) :
    (pass N slow fast b e.want e.unfiltered e.probes).1.delay = b.delay := by
  obtain ⟨h1, -, -, h4, -⟩ := pass_spec (N := N) (slow := slow) (fast := fast) b e
  rw [h4]
  rw [h] at h1
  simp only [← h1, tried_off, if_true]

/-- The counters of the back-off. -/
structure BInv (b : B) : Prop where
  pow : ∃ k, k ≤ 7 ∧ b.delay = 2 ^ k
  cur : b.cur < b.delay

theorem BInv.pass {b : B} (h : BInv b) (e : Ev) : BInv (pass N slow fast b e.want e.unfiltered e.probes).1 := by
  obtain ⟨h1, h2, -, h4, -⟩ := pass_spec (N := N) (slow := slow) (fast := fast) b e
  cases hf : (Treatment.pass N slow fast b e.want e.unfiltered e.probes).2.2 with
  | false =>
    have hd := pass_off b e hf
    refine ⟨by rw [hd]; exact h.pow, ?_⟩
    rw [hd, h2]
    have := h.cur
    split
    · split <;> omega
    · exact this
  | true =>
    rw [hf] at h1
    have hw : e.want = true ∧ b.delay ≤ b.cur + 1 := by
      have := h1.symm
      simpa using this
    obtain ⟨k, hk, he⟩ := h.pow
    have hp : ∃ k, k ≤ 7 ∧ (Treatment.pass N slow fast b e.want e.unfiltered e.probes).1.delay = 2 ^ k := by
      rw [h4]
      dsimp only
      split
      · exact ⟨k, hk, he⟩
      split
      · rcases Nat.lt_or_ge k 7 with hk7 | hk7
        · refine ⟨k + 1, by omega, ?_⟩
          rw [he, ← Nat.pow_succ]
          have : 2 ^ (k + 1) ≤ 2 ^ 7 := Nat.pow_le_pow_right (by omega) (by omega)
          exact Nat.min_eq_left this
        · have : k = 7 := by omega
          subst this
          exact ⟨7, by omega, by rw [he]; decide⟩
      split
      · cases k with
        | zero => exact ⟨0, by omega, by rw [he]; decide⟩
        | succ k =>
          refine ⟨k, by omega, ?_⟩
          rw [he, Nat.pow_succ, Nat.mul_div_cancel _ (by omega)]
          exact Nat.max_eq_left (Nat.pow_pos (by omega))
      · exact ⟨k, hk, he⟩
    refine ⟨hp, ?_⟩
    rw [h2, if_pos hw.1, if_neg (by omega)]
    obtain ⟨k, -, he⟩ := hp
    rw [he]
    exact Nat.pow_pos (by omega)

theorem BInv.runs {b : B} (h : BInv b) (L : List Ev) : BInv (runs N slow fast b L).1 := by
  induction L generalizing b with
  | nil => exact h
  | cons e L ih => exact ih (h.pass e)

theorem BInv.start : BInv B.init := ⟨⟨0, by omega, rfl⟩, by decide⟩

/-- C76: after any history the delay is a power of two of at most 128, and fewer treatments than that have been
skipped since the last attempt. -/
theorem backoff_range (L : List Ev) : (∃ k, k ≤ 7 ∧ (runs N slow fast B.init L).1.delay = 2 ^ k) ∧
    (runs N slow fast B.init L).1.cur < (runs N slow fast B.init L).1.delay :=
  ⟨(BInv.start.runs L).pow, (BInv.start.runs L).cur⟩

theorem skip_run : ∀ (m : Nat) (b : B) (L : List Ev), b.cur + 1 + m = b.delay → (∀ e ∈ L, e.want = true) → L.length = m + 1 →
    (runs N slow fast b L).2 = List.replicate m false ++ [true]
  | 0, b, [e], hb, hw, _ => by
    obtain ⟨h1, -⟩ := pass_spec (N := N) (slow := slow) (fast := fast) b e
    show [(pass N slow fast b e.want e.unfiltered e.probes).2.2] = [true]
    rw [h1, hw e (by simp)]
    simp; omega
  | m + 1, b, e :: L, hb, hw, hl => by
    obtain ⟨h1, h2, -⟩ := pass_spec (N := N) (slow := slow) (fast := fast) b e
    have h0 := hw e (by simp)
    have hf : (pass N slow fast b e.want e.unfiltered e.probes).2.2 = false := by rw [h1, h0]; simp; omega
    show (pass N slow fast b e.want e.unfiltered e.probes).2.2 :: (runs N slow fast (pass N slow fast b e.want e.unfiltered e.probes).1 L).2 = _
    rw [hf, skip_run m _ L (by rw [pass_off b e hf, h2, if_pos h0, if_pos (by omega)]; omega) (fun x hx => hw x (by simp [hx])) (by simpa using hl)]
    rfl

/-- C76: after any history, the treatments in which collapsing is wanted are skipped until as many as the delay less
one were since the last attempt; the next one tries. -/
theorem backoff_skips (L0 L : List Ev) (hw : ∀ e ∈ L, e.want = true)
    (hl : L.length = (runs N slow fast B.init L0).1.delay - (runs N slow fast B.init L0).1.cur) :
    (runs N slow fast (runs N slow fast B.init L0).1 L).2 = List.replicate (L.length - 1) false ++ [true] := by
  have h := (backoff_range (N := N) (slow := slow) (fast := fast) L0).2
  exact skip_run _ _ L (by omega) hw (by omega)

theorem runs_append (b : B) (L L' : List Ev) : runs N slow fast b (L ++ L') =
    ((runs N slow fast (runs N slow fast b L).1 L').1, (runs N slow fast b L).2 ++ (runs N slow fast (runs N slow fast b L).1 L').2) := by
  induction L generalizing b with
  | nil => rfl
  | cons e L ih => simp only [List.cons_append, runs, ih]

theorem try_within : ∀ (L : List Ev) (b : B), BInv b → b.delay ≤ b.cur + (L.filter (·.want)).length →
    true ∈ (runs N slow fast b L).2
  | [], b, h, hl => by have := h.cur; simp at hl; omega
  | e :: L, b, h, hl => by
    obtain ⟨h1, h2, -⟩ := pass_spec (N := N) (slow := slow) (fast := fast) b e
    show true ∈ (pass N slow fast b e.want e.unfiltered e.probes).2.2 :: (runs N slow fast (pass N slow fast b e.want e.unfiltered e.probes).1 L).2
    cases hf : (pass N slow fast b e.want e.unfiltered e.probes).2.2 with
    | true => simp
    | false =>
      refine List.mem_cons_of_mem _ (try_within L _ (h.pass e) ?_)
      rw [pass_off b e hf, h2]
      rw [hf] at h1
      cases hw : e.want with
      | false => rw [List.filter_cons_of_neg (by simp [hw])] at hl; simpa using hl
      | true =>
        rw [List.filter_cons_of_pos (by simp [hw]), List.length_cons] at hl
        have : b.cur + 1 < b.delay := by rw [hw] at h1; simpa using h1
        rw [if_pos rfl, if_pos this]
        omega

/-- C76: however slow collapsing is, of any 128 successive treatments in which it is wanted at least one tries. -/
theorem backoff_tries (L0 L : List Ev) (h : 128 ≤ (L.filter (·.want)).length) :
    true ∈ (runs N slow fast (runs N slow fast B.init L0).1 L).2 := by
  refine try_within L _ (BInv.start.runs L0) ?_
  obtain ⟨k, hk, he⟩ := (BInv.start.runs (N := N) (slow := slow) (fast := fast) L0).pow
  have : 2 ^ k ≤ 2 ^ 7 := Nat.pow_le_pow_right (by omega) hk
  omega

/-- The attempts of a history of treatments. -/
def attempts (slow : Nat) : List Ev → List Bool → List Probe
  | e :: L, f :: F => tried f e.unfiltered slow e.probes ++ attempts slow L F
  | _, _ => []

/-- The hugepages looked at by the treatments that tried. -/
def looked : List Ev → List Bool → Nat
  | e :: L, f :: F => (if f then e.probes.length else 0) + looked L F
  | _, _ => 0

theorem figures_add (a b : Nat) (T U : List Probe) : (figures a T).add (figures b U) = figures (a + b) (T ++ U) := by
  unfold figures Stats.add
  simp only [List.length_append, List.filter_append, List.map_append, List.sum_append, Stats.mk.injEq]
  refine ⟨trivial, trivial, trivial, trivial, trivial, ?_⟩
  induction T with
  | nil => simp
  | cons p T ih => simp only [List.map_cons, List.foldr_cons, List.cons_append, ← ih]; omega

theorem runs_length (L : List Ev) : ∀ b : B, (runs N slow fast b L).2.length = L.length := by
  induction L with
  | nil => intro b; rfl
  | cons e L ih => intro b; simp [runs, ih]

theorem totals_from (L : List Ev) : ∀ (b : B) (n : Nat) (T : List Probe), b.total = figures n T →
    (runs N slow fast b L).1.total =
      figures (n + looked L (runs N slow fast b L).2) (T ++ attempts slow L (runs N slow fast b L).2) ∧
    (runs N slow fast b L).1.skips = b.skips +
      ((L.zip (runs N slow fast b L).2).filter (fun x => x.1.want && !x.2)).length := by
  induction L with
  | nil => intro b n T h; simp [runs, looked, attempts, h]
  | cons e L ih =>
    intro b n T h
    obtain ⟨h1, -, h3, -, h5⟩ := pass_spec (N := N) (slow := slow) (fast := fast) b e
    rw [← h1, h, figures_add] at h5
    obtain ⟨i1, i2⟩ := ih _ _ _ h5
    simp only [runs, looked, attempts, List.zip_cons_cons]
    rw [i1, i2, h3, List.append_assoc, Nat.add_assoc]
    refine ⟨rfl, ?_⟩
    rw [List.filter_cons]
    have : (e.want && !(pass N slow fast b e.want e.unfiltered e.probes).2.2) = (e.want && decide (b.cur + 1 < b.delay)) := by
      rw [h1]
      cases e.want
      · rfl
      · simp only [Bool.true_and]
        rw [Bool.eq_iff_iff]; simp
    rw [this]
    split <;> simp <;> omega

/-- C76: the totals reported after any history are those of all attempts made, and the number of skipped treatments is
that of those in which collapsing was wanted and not tried. -/
theorem totals_exact (L : List Ev) :
    (runs N slow fast B.init L).1.total =
      figures (looked L (runs N slow fast B.init L).2) (attempts slow L (runs N slow fast B.init L).2) ∧
    (runs N slow fast B.init L).1.skips = ((L.zip (runs N slow fast B.init L).2).filter (fun x => x.1.want && !x.2)).length := by
  have := totals_from (N := N) (slow := slow) (fast := fast) L B.init 0 [] rfl
  simpa [B.init] using this

/-! ### While the kernel collapses -/

theorem During.reach {id : Nat} {s : F} {g : Gh} (h : During N mode id s g) :
    Filler.Reach N mode s g ∧ (s.tr id).relCount = 0 := by
  induction h with
  | start h _ _ hr => exact ⟨h, hr⟩
  | contribute x loc n objs index u donated dense _ h1 h2 h3 h4 e ih =>
    exact ⟨.contribute x loc n objs index u donated dense ih.1 h1 h2 h3 h4 e, contribute_rel e id ih.2⟩
  | full n objs dense _ e ih => exact ⟨.full n objs dense ih.1 e, tryGet_rel e id ih.2⟩
  | get n objs dense x index rel _ e ih => exact ⟨.get n objs dense x index rel ih.1 e, tryGet_rel e id ih.2⟩
  | put x A a B r _ h1 e ih => exact ⟨.put x A a B r ih.1 h1 e, (put_rel e id).trans ih.2⟩
  | answer A x rest B ok r _ h1 e ih => exact ⟨.answer A x rest B ok r ih.1 h1 e, (putAnswer_rel e id).trans ih.2⟩
  | release desired adjusted skip ok total log _ hs e ih =>
    exact ⟨.release desired adjusted skip ok total log ih.1 e, (release_rel e hs).1.trans ih.2⟩

/-- C76: while the kernel works on collapsing a hugepage, whatever is allocated, freed and released, none of its pages
is returned to the system: there is still none when the kernel is done, and no release meanwhile passes the system a
range of it. -/
theorem collapse_undisturbed {id : Nat} {s : F} {g : Gh} (h : During N mode id s g) :
    (s.tr id).relCount = 0 ∧ ∀ desired adjusted skip ok s' total log, skip id = true →
      releasePages N mode s desired adjusted skip ok = some (s', total, log) → ∀ c, (id, c) ∉ log :=
  ⟨h.reach.2, fun _ _ _ _ _ _ _ hs e => (release_rel e hs).2⟩

/-- C76: a treatment as a whole: from any state between treatments, the selected hugepages are examined in order and
what is recorded of them ends the treatment: no check fails, the filler is again in a state in which all that was
proved of fillers holds, no allocation is affected, and pages come to count as returned only if the system was asked
for it or the kernel's flags showed them without memory while they were free. -/
theorem treat_ends (hN : 2 ≤ N) {s : F} {g : Gh} {A : List Nat} {L : List Probe} (h : Filler.Reach N mode s g)
    (ht : g.treat = some (A, L.map Probe.id)) (hu : ∀ p ∈ L, WF N p.unbacked) (stale : Bool) (ok : Nat → Nat → Bool) :
    ∃ s' log, Filler.treatEnd N mode stale s A ((treat N en unf slow L).2.map Rec.obs) ok = some (s', log) ∧
      Filler.Reach N mode s' { g with treat := none } ∧ (∀ x ∈ log, CallOk N g x) ∧ (∀ x, (s'.tr x).free = (s.tr x).free) ∧
      ∀ x j, (s'.tr x).Rel j → (s.tr x).Rel j ∨ InLog log x j ∨
        ∃ p ∈ L, p.id = x ∧ p.huge = some false ∧ bitAt p.unbacked j = true ∧ ¬ (s.tr x).Used j := by
  have hid : ∀ (L : List Probe) (t : Stats), (treatLoop N en unf slow t L).2.map (fun r => r.obs.id) = L.map Probe.id := by
    intro L
    induction L with
    | nil => intro t; rfl
    | cons p L ih =>
      intro t
      show (treatOne N en unf slow t p).2.obs.id :: (treatLoop N en unf slow (treatOne N en unf slow t p).1 L).2.map (fun r => r.obs.id) = _
      rw [ih, treatOne_eq, List.map_cons]
      congr 1
      show (recOf N en unf _ p).obs.id = _
      unfold recOf
      by_cases hp : p.huge = some false
      · rw [if_pos hp]
      · rw [if_neg hp]
  have hrec : ∀ (L : List Probe) (t : Stats), ∀ r ∈ (treatLoop N en unf slow t L).2, ∃ p ∈ L, ∃ b, r = recOf N en unf b p := by
    intro L
    induction L with
    | nil => intro t r hr; cases hr
    | cons p L ih =>
      intro t r hr
      have hr : r ∈ (treatOne N en unf slow t p).2 :: (treatLoop N en unf slow (treatOne N en unf slow t p).1 L).2 := hr
      rcases List.mem_cons.1 hr with rfl | hr
      · rw [treatOne_eq]
        exact ⟨p, by simp, _, rfl⟩
      · obtain ⟨q, hq, b, e⟩ := ih _ r hr
        exact ⟨q, by simp [hq], b, e⟩
  obtain ⟨s', log, ub, e, hR, h1, h2, h3, -, -, h6⟩ := treatEnd_exact hN h (A := A) (obs := (treat N en unf slow L).2.map Rec.obs)
    (by rw [ht, List.map_map]; exact congrArg (fun l => some (A, l)) (hid L _).symm)
    (by
      intro o ho
      obtain ⟨r, hr, rfl⟩ := List.mem_map.1 ho
      obtain ⟨p, hp, b, rfl⟩ := hrec L _ r hr
      unfold recOf
      by_cases hh : p.huge = some false
      · rw [if_pos hh]; exact hu p hp
      · rw [if_neg hh]; exact wf_empty N) stale ok
  refine ⟨s', log, e, hR, h1, fun x => (h6 x).1, ?_⟩
  intro x j hj
  rcases (h3 x j).1 hj with h | h | ⟨w, hw, -, hn, hb⟩
  · exact Or.inl h
  · exact Or.inr (Or.inl h)
  · obtain ⟨o, ho, e1, e2⟩ := h2 _ hw
    obtain ⟨r, hr, rfl⟩ := List.mem_map.1 ho
    obtain ⟨p, hp, b, rfl⟩ := hrec L _ r hr
    obtain ⟨rfl, rfl⟩ := Prod.mk.inj e1
    unfold recOf at e2 hb hn ⊢
    by_cases hh : p.huge = some false
    · rw [if_pos hh] at hb hn ⊢
      exact Or.inr (Or.inr ⟨p, hp, rfl, hh, hb, hn⟩)
    · rw [if_neg hh] at e2; exact nomatch e2

end Verif.Treatment
