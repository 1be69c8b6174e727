import Verif.Filler.Stats
/-! C15, C16 (and the filler's part of C13): theorems about the hugepage filler for every history. -/
namespace Verif.Filler
open Verif.Bitmap Verif.RangeTracker Verif.PageTracker Verif.HintedLists

variable {N : Nat} {mode : Bool}

/-! ### C15: the books -/

/-- C15: every hugepage with live runs is on exactly the list its state calls for, and the lists hold nothing else. -/
theorem on_its_list (hN : 2 ≤ N) {s : F} {g : Gh} (h : Reach N mode s g) (k : LK) (i id : Nat) :
    id ∈ (s.hl k).lists i ↔ g.live id ≠ [] ∧ Belongs N mode (s.tr id) k i := by
  have hk := (h.k hN).1
  rw [hk.li.mem k i id, hk.held id]
  constructor
  · rintro ⟨a, b⟩
    have hid := (hk.held id).2 a
    exact ⟨a, (belongs_iff (hk.v hid) (G.used_rel (hk.g hid)) k i).2 b⟩
  · rintro ⟨a, b⟩
    have hid := (hk.held id).2 a
    exact ⟨a, (belongs_iff (hk.v hid) (G.used_rel (hk.g hid)) k i).1 b⟩

theorem K.rel_eq {s : F} {g : Gh} (h : K N mode s g) {id : Nat} (hid : id ∈ g.held) :
    (s.tr id).relCount = relPages N (s.tr id) := by
  unfold relPages
  rw [cnt_range]
  exact (h.g hid).cnt

theorem K.used_eq {s : F} {g : Gh} (h : K N mode s g) {id : Nat} (hid : id ∈ g.held) :
    (s.tr id).free.nused = usedPages (g.live id) := (accounting_of (h.g hid)).2.2.2.1

/-- C15: the totals are exact.  With every hugepage holding live runs counted once: the number of hugepages, the pages
in use on sparse and on dense hugepages, the pages returned to the kernel; the reported number of free pages is what
remains, and the three together are all pages. -/
theorem accounting_exact (hN : 2 ≤ N) {s : F} {g : Gh} (h : Reach N mode s g) :
    g.held.Nodup ∧ (∀ id, id ∈ g.held ↔ g.live id ≠ []) ∧ s.size = g.held.length ∧
    (∀ d, s.alloc d = ((g.held.filter (fun id => (s.tr id).dense == d)).map (fun id => usedPages (g.live id))).sum) ∧
    s.unmapped = (g.held.map (fun id => relPages N (s.tr id))).sum ∧
    (∃ free, freeTotal N s = some free ∧
      free = (g.held.map (fun id => N - usedPages (g.live id) - relPages N (s.tr id))).sum ∧
      s.alloc false + s.alloc true + free + s.unmapped = s.size * N) ∧
    (∀ id ∈ g.held, usedPages (g.live id) + relPages N (s.tr id) ≤ N) := by
  have hk := (h.k hN).1
  have hu : s.unmapped = sumOn (fun id => relPages N (s.tr id)) g.held := by
    rw [hk.unm]; exact sumOn_congr (fun x hx => by unfold relIn; exact hk.rel_eq hx)
  have hle : ∀ id ∈ g.held, usedPages (g.live id) + relPages N (s.tr id) ≤ N := by
    intro id hid
    rw [← hk.rel_eq hid, ← hk.used_eq hid]
    exact G.used_rel (hk.g hid)
  have ha : s.alloc false + s.alloc true = sumOn (fun id => usedPages (g.live id)) g.held := by
    rw [hk.alloc, hk.alloc, ← sumOn_add]
    refine sumOn_congr (fun x hx => ?_)
    rw [← hk.used_eq hx]
    unfold usedIn
    cases (s.tr x).dense <;> simp
  refine ⟨hk.held_nd, hk.held, hk.size, ?_, hu, ?_, hle⟩
  · intro d
    show _ = sumOn (fun id => usedPages (g.live id)) (g.held.filter _)
    rw [sumOn_filter, hk.alloc]
    refine sumOn_congr (fun x hx => ?_)
    rw [← hk.used_eq hx]
    unfold usedIn
    simp
  · have hsz : s.size * N = sumOn (fun _ => N) g.held := by rw [hk.size, sumOn_const]
    obtain ⟨a1, a2⟩ := sumOn_sub (f := fun _ => N) (k := fun id => usedPages (g.live id)) (L := g.held)
      (fun x hx => by have := hle x hx; omega)
    obtain ⟨b1, b2⟩ := sumOn_sub (f := fun id => N - usedPages (g.live id)) (k := fun id => relPages N (s.tr id)) (L := g.held)
      (fun x hx => by have := hle x hx; omega)
    refine ⟨_, ?_, rfl, ?_⟩
    · unfold freeTotal
      rw [hsz, ha, subCount_le a2]
      show subCount _ _ = _
      rw [a1, hu, subCount_le b2, b1]; rfl
    · rw [hsz, ha, hu]
      show _ + sumOn (fun id => N - usedPages (g.live id) - relPages N (s.tr id)) g.held + _ = _
      omega

theorem kd_full {t : PT} (h : t.free.nused + t.relCount ≤ N) :
    (fullyReleased N mode t = true ↔ kd N mode t = .released t.dense) ∧
    (partlyReleased N mode t = true ↔ kd N mode t = .partialRel t.dense) := by
  unfold fullyReleased partlyReleased kd place kindOf freePages
  by_cases hd : t.donated = true
  · simp [hd]
  · have hd' : t.donated = false := by simpa using hd
    by_cases hw : t.relCount = 0 ∧ (t.unbroken = true ∨ mode = false)
    · have : (t.relCount == 0 && (t.unbroken || !mode)) = true := by
        rw [Bool.and_eq_true, Bool.or_eq_true, beq_iff_eq]; simpa using hw
      rw [if_pos hw, this]; simp [hd']
    · have : (t.relCount == 0 && (t.unbroken || !mode)) = false := by
        cases hb : (t.relCount == 0 && (t.unbroken || !mode)) with
        | false => rfl
        | true =>
          rw [Bool.and_eq_true, Bool.or_eq_true, beq_iff_eq] at hb
          exact absurd (by simpa using hb) hw
      simp only [hd', this, if_neg hw, Bool.not_false, Bool.true_and, Bool.false_eq_true, if_false, decide_eq_true_eq]
      by_cases hf : N - t.free.nused ≤ t.relCount
      · rw [if_pos hf]; simp; omega
      · rw [if_neg hf]; simp; omega

/-- C15: the counts behind `used_pages_in_released`, `used_pages_in_partial_released` and `FreePagesInPartialAllocs` are
exact, and none of their checks or subtractions fails. -/
theorem released_books_exact (hN : 2 ≤ N) {s : F} {g : Gh} (h : Reach N mode s g) :
    usedInReleased N s =
      some (((g.held.filter (fun id => fullyReleased N mode (s.tr id))).map (fun id => usedPages (g.live id))).sum) ∧
    usedInPartial N s =
      some (((g.held.filter (fun id => partlyReleased N mode (s.tr id))).map (fun id => usedPages (g.live id))).sum) ∧
    freeInPartial N s =
      some (((g.held.filter (fun id => fullyReleased N mode (s.tr id) || partlyReleased N mode (s.tr id))).map
        (fun id => N - usedPages (g.live id) - relPages N (s.tr id))).sum) := by
  have hk := (h.k hN).1
  have hur : ∀ id ∈ g.held, (s.tr id).free.nused + (s.tr id).relCount ≤ N := fun id hid => G.used_rel (hk.g hid)
  have key : ∀ k, sumOn (usedAt N mode s.tr k) g.held ≤ (s.hl k).size * N := by
    intro k
    rw [size_kind hk, sumOn_mul]
    refine sumOn_le (fun x hx => ?_)
    have := hur x hx
    unfold usedAt kd
    split <;> omega
  have sum2 : ∀ (c : Bool → LK), (∀ t d, kd N mode t = c d → t.dense = d) →
      sumOn (usedAt N mode s.tr (c true)) g.held + sumOn (usedAt N mode s.tr (c false)) g.held =
      sumOn (fun id => if kd N mode (s.tr id) = c (s.tr id).dense then usedPages (g.live id) else 0) g.held := by
    intro c hc
    rw [← sumOn_add]
    refine sumOn_congr (fun x hx => ?_)
    rw [← hk.used_eq hx]
    unfold usedAt
    have h1 := hc (s.tr x) true
    have h2 := hc (s.tr x) false
    unfold kd at h1 h2 ⊢
    cases hd : (s.tr x).dense
    · rw [if_neg (fun hh => by have := h1 hh; rw [hd] at this; simp at this)]; simp
    · rw [if_neg (c := (place N mode (s.tr x)).1 = c false) (fun hh => by have := h2 hh; rw [hd] at this; simp at this)]; simp
  have hcr : ∀ t d, kd N mode t = .released d → t.dense = d := fun t d hh => kd_dense (Or.inl hh)
  have hcp : ∀ t d, kd N mode t = .partialRel d → t.dense = d := fun t d hh => kd_dense (Or.inr hh)
  have e1 : usedInReleased N s =
      some (((g.held.filter (fun id => fullyReleased N mode (s.tr id))).map (fun id => usedPages (g.live id))).sum) := by
    unfold usedInReleased
    rw [hk.li.rel, hk.li.rel, if_pos ⟨key _, key _⟩, sum2 LK.released hcr]
    show _ = some (sumOn (fun id => usedPages (g.live id)) (g.held.filter _))
    rw [sumOn_filter]
    congr 1
    refine sumOn_congr (fun x hx => ?_)
    have := (kd_full (mode := mode) (hur x hx)).1
    simp only [this]
  have e2 : usedInPartial N s =
      some (((g.held.filter (fun id => partlyReleased N mode (s.tr id))).map (fun id => usedPages (g.live id))).sum) := by
    unfold usedInPartial
    rw [hk.li.part, hk.li.part, if_pos ⟨key _, key _⟩, sum2 LK.partialRel hcp]
    show _ = some (sumOn (fun id => usedPages (g.live id)) (g.held.filter _))
    rw [sumOn_filter]
    congr 1
    refine sumOn_congr (fun x hx => ?_)
    have := (kd_full (mode := mode) (hur x hx)).2
    simp only [this]
  refine ⟨e1, e2, ?_⟩
  unfold freeInPartial
  rw [e1, e2]
  simp only []
  have hb : ∀ id ∈ g.held, (fullyReleased N mode (s.tr id) || partlyReleased N mode (s.tr id)) = false →
      (s.tr id).relCount = 0 := by
    intro id hid hf
    rw [Bool.or_eq_false_iff] at hf
    cases hd : (s.tr id).donated with
    | true => exact (hk.don id hid hd).2.1
    | false =>
      apply Classical.byContradiction
      intro hne
      have := hur id hid
      simp only [fullyReleased, partlyReleased, hd] at hf
      simp [hne] at hf
      omega
  have exclusive : ∀ id, ¬ (fullyReleased N mode (s.tr id) = true ∧ partlyReleased N mode (s.tr id) = true) := by
    intro id
    unfold fullyReleased partlyReleased
    rintro ⟨a, b⟩
    rw [Bool.and_eq_true, decide_eq_true_eq] at a b
    omega
  have hsz : ((s.hl (.partialRel false)).size + (s.hl (.partialRel true)).size + (s.hl (.released false)).size +
      (s.hl (.released true)).size) * N =
      sumOn (fun id => if fullyReleased N mode (s.tr id) || partlyReleased N mode (s.tr id) then N else 0) g.held := by
    rw [size_kind hk, size_kind hk, size_kind hk, size_kind hk, ← sumOn_add, ← sumOn_add, ← sumOn_add, sumOn_mul]
    refine sumOn_congr (fun x hx => ?_)
    obtain ⟨f1, f2⟩ := kd_full (mode := mode) (hur x hx)
    cases hf : fullyReleased N mode (s.tr x) with
    | true =>
      rw [f1.1 hf]
      cases (s.tr x).dense <;> simp
    | false =>
      cases hp : partlyReleased N mode (s.tr x) with
      | true =>
        rw [f2.1 hp]
        cases (s.tr x).dense <;> simp
      | false =>
        rw [hf] at f1
        rw [hp] at f2
        have n1 : ∀ d, kd N mode (s.tr x) ≠ .released d := by
          intro d hh
          have := kd_dense (Or.inl hh)
          rw [← this] at hh
          simpa using f1.2 hh
        have n2 : ∀ d, kd N mode (s.tr x) ≠ .partialRel d := by
          intro d hh
          have := kd_dense (Or.inr hh)
          rw [← this] at hh
          simpa using f2.2 hh
        simp [n1, n2]
  rw [hsz]
  have hused : sumOn (fun id => usedPages (g.live id)) (g.held.filter (fun id => fullyReleased N mode (s.tr id))) +
      sumOn (fun id => usedPages (g.live id)) (g.held.filter (fun id => partlyReleased N mode (s.tr id))) =
      sumOn (fun id => if fullyReleased N mode (s.tr id) || partlyReleased N mode (s.tr id) then usedPages (g.live id) else 0)
        g.held := by
    rw [sumOn_filter, sumOn_filter, ← sumOn_add]
    refine sumOn_congr (fun x hx => ?_)
    have := exclusive x
    cases hf : fullyReleased N mode (s.tr x) <;> cases hp : partlyReleased N mode (s.tr x) <;> simp
    exact absurd ⟨hf, hp⟩ this
  have hunm : s.unmapped =
      sumOn (fun id => if fullyReleased N mode (s.tr id) || partlyReleased N mode (s.tr id) then relPages N (s.tr id) else 0)
        g.held := by
    rw [hk.unm]
    refine sumOn_congr (fun x hx => ?_)
    unfold relIn
    split
    · exact hk.rel_eq hx
    · next hf => exact hb x hx (by simpa using hf)
  have hle : ∀ id ∈ g.held, usedPages (g.live id) + relPages N (s.tr id) ≤ N := by
    intro id hid
    rw [← hk.rel_eq hid, ← hk.used_eq hid]
    exact hur id hid
  obtain ⟨a1, a2⟩ := sumOn_sub
    (f := fun id => if fullyReleased N mode (s.tr id) || partlyReleased N mode (s.tr id) then N else 0)
    (k := fun id => if fullyReleased N mode (s.tr id) || partlyReleased N mode (s.tr id) then usedPages (g.live id) else 0)
    (L := g.held) (fun x hx => by have := hle x hx; split <;> omega)
  obtain ⟨b1, b2⟩ := sumOn_sub
    (f := fun id => (if fullyReleased N mode (s.tr id) || partlyReleased N mode (s.tr id) then N else 0) -
      (if fullyReleased N mode (s.tr id) || partlyReleased N mode (s.tr id) then usedPages (g.live id) else 0))
    (k := fun id => if fullyReleased N mode (s.tr id) || partlyReleased N mode (s.tr id) then relPages N (s.tr id) else 0)
    (L := g.held) (fun x hx => by have := hle x hx; split <;> omega)
  have hsub : (List.map (fun id => usedPages (g.live id)) (List.filter (fun id => fullyReleased N mode (s.tr id)) g.held)).sum +
      (List.map (fun id => usedPages (g.live id)) (List.filter (fun id => partlyReleased N mode (s.tr id)) g.held)).sum = _ := hused
  rw [hsub, subCount_le a2]
  show subCount _ _ = _
  rw [a1, hunm, subCount_le b2, b1]
  show _ = some (sumOn (fun id => N - usedPages (g.live id) - relPages N (s.tr id)) (g.held.filter _))
  rw [sumOn_filter]
  congr 1
  refine sumOn_congr (fun x hx => ?_)
  split <;> simp

/-! ### Reported free spans -/

theorem iter_kind {s : F} {g : Gh} (h : K N mode s g) (k : LK) {start : Nat} (hs : start < nLists N k) :
    iter (nLists N k) (s.hl k) start = some (elems (s.hl k).lists start (nLists N k - start)) :=
  iter_inv (h.li.inv k) start hs

/-- The trackers visited for the statistics are those with a free page, each once. -/
theorem statIds_spec (hN : 2 ≤ N) {s : F} {g : Gh} (h : K N mode s g) :
    ∃ L, statIds N s = some L ∧ L.Nodup ∧ (∀ id ∈ L, id ∈ g.held) ∧
      ∀ id ∈ g.held, id ∉ L → (s.tr id).free.nused = N := by
  have hst : ∀ k, 0 < nLists N k := by intro k; cases k <;> simp [nLists, kChunks] <;> omega
  have hst8 : ∀ d, kChunks < nLists N (.regular d) := by intro d; unfold kChunks; show 8 < N * 8; omega
  refine ⟨_, by
    unfold statIds
    rw [iter_kind h _ (hst _), iter_kind h _ (hst8 _), iter_kind h _ (hst _), iter_kind h _ (hst _), iter_kind h _ (hst8 _),
      iter_kind h _ (hst _), iter_kind h _ (hst _)]
    rfl, ?_, ?_, ?_⟩
  · have hmem : ∀ k st x, x ∈ elems (s.hl k).lists st (nLists N k - st) → kd N mode (s.tr x) = k := by
      intro k st x hx
      obtain ⟨i, _, _, h3⟩ := mem_elems.1 hx
      unfold kd; rw [((h.li.mem k i x).1 h3).2]
    have hnd : ∀ k st n, (elems (s.hl k).lists st n).Nodup := fun k st n => elems_nodup (h.li.inv k) _ _
    have app : ∀ (A B : List Nat) (ks : List LK) (k : LK), A.Nodup → B.Nodup → (∀ x ∈ A, kd N mode (s.tr x) ∈ ks) →
        (∀ x ∈ B, kd N mode (s.tr x) = k) → k ∉ ks → (A ++ B).Nodup ∧ ∀ x ∈ A ++ B, kd N mode (s.tr x) ∈ k :: ks := by
      intro A B ks k hA hB hak hbk hk
      constructor
      · rw [List.nodup_append]
        refine ⟨hA, hB, ?_⟩
        intro a ha b hb e
        subst e
        have := hak a ha
        rw [hbk a hb] at this
        exact hk this
      · intro x hx
        rcases List.mem_append.1 hx with hx | hx
        · exact List.mem_cons_of_mem _ (hak x hx)
        · rw [hbk x hx]; exact List.mem_cons_self
    have a1 := app _ _ [.donated] (.regular true) (hnd .donated 0 (nLists N .donated - 0)) (hnd _ kChunks (nLists N (.regular true) - kChunks))
      (fun x hx => by rw [hmem _ _ x hx]; simp) (fun x hx => hmem _ _ x hx) (by simp)
    have a2 := app _ _ _ (.partialRel true) a1.1 (hnd _ 0 (nLists N (.partialRel true) - 0)) a1.2 (fun x hx => hmem _ _ x hx) (by simp)
    have a3 := app _ _ _ (.released true) a2.1 (hnd _ 0 (nLists N (.released true) - 0)) a2.2 (fun x hx => hmem _ _ x hx) (by simp)
    have a4 := app _ _ _ (.regular false) a3.1 (hnd _ kChunks (nLists N (.regular false) - kChunks)) a3.2 (fun x hx => hmem _ _ x hx) (by simp)
    have a5 := app _ _ _ (.partialRel false) a4.1 (hnd _ 0 (nLists N (.partialRel false) - 0)) a4.2 (fun x hx => hmem _ _ x hx) (by simp)
    have a6 := app _ _ _ (.released false) a5.1 (hnd _ 0 (nLists N (.released false) - 0)) a5.2 (fun x hx => hmem _ _ x hx) (by simp)
    exact a6.1
  · intro id hid
    simp only [List.mem_append] at hid
    have : ∀ k st, id ∈ elems (s.hl k).lists st (nLists N k - st) → id ∈ g.held := by
      intro k st hx
      obtain ⟨i, _, _, h3⟩ := mem_elems.1 hx
      exact ((h.li.mem k i id).1 h3).1
    rcases hid with (((((hid | hid) | hid) | hid) | hid) | hid) | hid <;> exact this _ _ hid
  · intro id hid hno
    simp only [List.mem_append, not_or] at hno
    obtain ⟨⟨⟨⟨⟨⟨n1, n2⟩, n3⟩, n4⟩, n5⟩, n6⟩, n7⟩ := hno
    have hin : ∀ st, st ≤ (place N mode (s.tr id)).2 →
        id ∈ elems (s.hl (kd N mode (s.tr id))).lists st (nLists N (kd N mode (s.tr id)) - st) := by
      intro st hle
      have := (on_kind h (kd N mode (s.tr id)) st).mem_iff (a := id)
      rw [this, List.mem_filter, decide_eq_true_eq]
      exact ⟨hid, rfl, hle⟩
    have hreg : ∀ d, kd N mode (s.tr id) = .regular d → id ∉ elems (s.hl (.regular d)).lists kChunks (nLists N (.regular d) - kChunks) →
        (s.tr id).free.nused = N := by
      intro d hk hn
      have h1 := hin kChunks
      rw [hk] at h1
      have h2 : ¬ kChunks ≤ (place N mode (s.tr id)).2 := fun hc => hn (h1 hc)
      have hp : place N mode (s.tr id) = (.regular d, (place N mode (s.tr id)).2) := by rw [← hk]
      obtain ⟨_, _, p3⟩ := place_nd hp (by simp)
      rw [← p3] at h2
      have h3 := mt (idx_ge (h.g hid) (h.t hid)).2 h2
      have := G.used_rel (h.g hid)
      omega
    have h0 := hin 0 (Nat.zero_le _)
    cases hk : kd N mode (s.tr id) with
    | donated => rw [hk] at h0; exact absurd h0 n1
    | regular d =>
      cases d with
      | true => exact hreg true hk n2
      | false => exact hreg false hk n5
    | partialRel d =>
      rw [hk] at h0
      cases d with
      | true => exact absurd h0 n3
      | false => exact absurd h0 n6
    | released d =>
      rw [hk] at h0
      cases d with
      | true => exact absurd h0 n4
      | false => exact absurd h0 n7

theorem runs_all {s : F} {g : Gh} (h : K N mode s g) : ∀ L : List Nat, (∀ id ∈ L, id ∈ g.held) →
    ∃ R, L.mapM (runsOf N s) = some R ∧
      ((R.flatten.filter (fun x => x.2.2)).map (·.2.1)).sum = sumOn (fun id => (s.tr id).relCount) L ∧
      ((R.flatten.filter (fun x => !x.2.2)).map (·.2.1)).sum = sumOn (fun id => N - (s.tr id).free.nused - (s.tr id).relCount) L ∧
      (∀ x ∈ R.flatten, 0 < x.2.1) := by
  intro L
  induction L with
  | nil => intro _; exact ⟨[], rfl, rfl, rfl, by simp⟩
  | cons id L ih =>
    intro hm
    obtain ⟨R, e, h1, h2, h3⟩ := ih (fun x hx => hm x (by simp [hx]))
    obtain ⟨L1, e1, a1, _⟩ := spanRuns_of (h.g (hm id (by simp)))
    obtain ⟨b1, b2⟩ := runs_rel (h.g (hm id (by simp))) e1
    refine ⟨L1 :: R, ?_, ?_, ?_, ?_⟩
    · rw [List.mapM_cons]
      have : runsOf N s id = some L1 := e1
      rw [this, e]; rfl
    · rw [List.flatten_cons, List.filter_append, List.map_append, List.sum_append, h1, b1, sumOn_cons]
    · rw [List.flatten_cons, List.filter_append, List.map_append, List.sum_append, h2, sumOn_cons]
      omega
    · intro x hx
      rw [List.flatten_cons] at hx
      rcases List.mem_append.1 hx with hx | hx
      · exact (a1 x hx).1
      · exact h3 x hx

/-- C15: the free spans reported for the statistics are non-empty; the lengths of the spans reported as returned add up
to the pages returned to the kernel, those of the others to the free pages. -/
theorem spanStats_exact (hN : 2 ≤ N) {s : F} {g : Gh} (h : Reach N mode s g) :
    ∃ R, spanStats N s = some R ∧ (∀ x ∈ R, 0 < x.1) ∧ ((R.filter (·.2)).map (·.1)).sum = s.unmapped ∧
      freeTotal N s = some (((R.filter (fun x => !x.2)).map (·.1)).sum) := by
  have hk := (h.k hN).1
  obtain ⟨L, e, hnd, hm, hrest⟩ := statIds_spec hN hk
  obtain ⟨R, e2, h1, h2, h3⟩ := runs_all hk L hm
  have hsum : ∀ f : Nat → Nat, (∀ id ∈ g.held, (s.tr id).free.nused = N → f id = 0) → sumOn f L = sumOn f g.held := by
    intro f hf
    have hp := filter_out_perm hk.held_nd hnd hm
    rw [← sumOn_perm hp, sumOn_append]
    have : sumOn f (g.held.filter (fun p => decide (p ∉ L))) = 0 := by
      rw [sumOn_congr (g := fun _ => 0), sumOn_const]
      · simp
      · intro x hx
        rw [List.mem_filter, decide_eq_true_eq] at hx
        exact hf x hx.1 (hrest x hx.1 hx.2)
    omega
  refine ⟨_, by unfold spanStats; rw [e]; simp only []; rw [e2]; rfl, ?_, ?_, ?_⟩
  · intro x hx
    obtain ⟨y, hy, rfl⟩ := List.mem_map.1 hx
    exact h3 y hy
  · rw [List.filter_map, List.map_map]
    show ((R.flatten.filter (fun x => x.2.2)).map (·.2.1)).sum = _
    rw [h1, hk.unm]
    exact hsum _ (fun id hid hu => by have := G.used_rel (hk.g hid); omega)
  · rw [List.filter_map, List.map_map]
    show _ = some ((R.flatten.filter (fun x => !x.2.2)).map (·.2.1)).sum
    obtain ⟨_, _, _, _, _, ⟨free, ef, hf, _⟩, _⟩ := accounting_exact hN h
    rw [ef, h2, hf, hsum _ (fun id hid hu => by have := G.used_rel (hk.g hid); omega)]
    congr 1
    exact sumOn_congr (fun x hx => by rw [← hk.used_eq hx, ← hk.rel_eq hx])

/-! ### C16: hugepages come and go exactly as they should -/

theorem freeRun_iff {s : F} {g : Gh} (h : K N mode s g) {id : Nat} (hid : id ∈ g.held) (n : Nat) :
    (∃ i, FreeRun N (g.live id) i n) ↔ n ≤ (s.tr id).free.longestFree := by
  rw [← (h.g hid).good.exact.longest n]
  constructor
  · rintro ⟨i, h1, h2⟩
    refine ⟨i, h1, ?_⟩
    intro j a b
    cases hb : bitAt (s.tr id).free.bits j with
    | false => rfl
    | true =>
      obtain ⟨x, hx, hj⟩ := ((h.g hid).used_iff j).1 hb
      exact absurd hj (h2 x hx j a b)
  · rintro ⟨i, h1, h2⟩
    refine ⟨i, h1, ?_⟩
    intro x hx j a b hj
    have := ((h.g hid).used_iff j).2 ⟨x, hx, hj⟩
    unfold PT.Used at this
    rw [h2 j a b] at this
    simp at this

theorem pinned_iff {s : F} {g : Gh} (h : K N mode s g) {id : Nat} (hid : owned s g id) :
    (s.tr id).dontFree ≠ 0 ↔ Pinned g id := by
  rw [h.pins id hid]
  unfold Pinned
  cases ht : g.treat with
  | none => simp [mask]
  | some x =>
    obtain ⟨A, B⟩ := x
    simp only [Option.some.injEq, Prod.mk.injEq]
    show (if id ∈ A then 1 else 0) + (if id ∈ B then 2 else 0) ≠ 0 ↔ _
    constructor
    · intro hne
      refine ⟨A, B, ⟨rfl, rfl⟩, ?_⟩
      apply Classical.byContradiction
      intro hc
      rw [not_or] at hc
      simp [hc.1, hc.2] at hne
    · rintro ⟨A', B', ⟨rfl, rfl⟩, h | h⟩ <;> simp [h]

/-- C16: a hugepage the filler refers to has live runs, or is waiting for the kernel, or has been left fully freed, and
only one of these; hugepages selected by a treatment in progress are among them (their trackers stay allocated). -/
theorem ownership (hN : 2 ≤ N) {s : F} {g : Gh} (h : Reach N mode s g) :
    (g.held ++ (g.flight.map Prod.fst ++ s.freed)).Nodup ∧ (∀ id, id ∈ g.held ↔ g.live id ≠ []) ∧
    (∀ id, Pinned g id → owned s g id) := by
  have hk := (h.k hN).1
  refine ⟨hk.nd, hk.held, ?_⟩
  rintro id ⟨A, B, ht, hid⟩
  exact hk.sel A B ht id hid

/-- C16: `TryGet` fails only if no hugepage of the requested density has enough consecutive free pages.  Otherwise it
returns pages inside one hugepage that belong to no live run, from the most preferred array and there from the lowest
list with a fitting hugepage. -/
theorem tryGet_exact (hN : 2 ≤ N) {s : F} {g : Gh} (h : Reach N mode s g) {n objs : Nat} {dense : Bool} (hn : 0 < n)
    (hlt : n < N) (h1 : dense = true → n = 1) :
    (tryGet N mode s n objs dense = some (s, none) ∧
      ∀ id, g.live id ≠ [] → (s.tr id).dense = dense → ¬ ∃ i, FreeRun N (g.live id) i n) ∨
    (∃ s' id index w, tryGet N mode s n objs dense = some (s', some (id, (s.tr id).firstPage N + index, w)) ∧
      Reach N mode s' { g with live := upd g.live id (⟨index, n, objs⟩ :: g.live id) } ∧
      g.live id ≠ [] ∧ (s.tr id).dense = dense ∧ FreeRun N (g.live id) index n ∧
      s'.freed = s.freed ∧ (∀ x, x ≠ id → s'.tr x = s.tr x) ∧ (s'.tr id).loc = (s.tr id).loc ∧
      ∃ k i pre post, Belongs N mode (s.tr id) k i ∧ order dense = pre ++ k :: post ∧
        (w = true ↔ k = .partialRel dense ∨ k = .released dense) ∧
        ∀ id' k' i', g.live id' ≠ [] → Belongs N mode (s.tr id') k' i' → (∃ x, FreeRun N (g.live id') x n) →
          k' ∉ pre ∧ (k' = k → i ≤ i')) := by
  have hk := (h.k hN).1
  rcases tryGet_spec (objs := objs) hk hn hlt h1 with ⟨e, hno⟩ | ⟨s', id, index, w, e, hid, hd, hin, hfree, hK, hf, _, _, hne, hl,
    hw, pre, post, ho, hpre, hleast⟩
  · refine Or.inl ⟨e, ?_⟩
    intro id hl hd hc
    have hid := (hk.held id).2 hl
    have := (freeRun_iff hk hid n).1 hc
    have := hno id hid hd
    omega
  · refine Or.inr ⟨s', id, index, w, e, Reach.get n objs dense id index w h e, (hk.held id).1 hid, hd, ⟨hin, ?_⟩, hf, hne, hl,
      (place N mode (s.tr id)).1, (place N mode (s.tr id)).2, pre, post,
      (belongs_iff (hk.v hid) (G.used_rel (hk.g hid)) _ _).2 rfl, ho, hw, ?_⟩
    · intro a ha j b c hj
      exact hfree j b c (((hk.g hid).used_iff j).2 ⟨a, ha, hj⟩)
    · intro id' k' i' hl' hb' hfit
      have hid' := (hk.held id').2 hl'
      have hp := (belongs_iff (hk.v hid') (G.used_rel (hk.g hid')) _ _).1 hb'
      have hfit' := (freeRun_iff hk hid' n).1 hfit
      constructor
      · intro hc
        have := hpre id' hid' (by rw [hp]; exact hc)
        omega
      · intro hkk
        have := hleast id' hid' (by rw [hp]; exact hkk) hfit'
        rw [hp] at this
        exact this

/-- C16: contributing a hugepage the filler does not have always succeeds and leaves all others alone. -/
theorem contribute_exact (hN : 2 ≤ N) {s : F} {g : Gh} (h : Reach N mode s g) {id loc n objs index u : Nat} {donated dense : Bool}
    {t : PT} (hno : ¬ owned s g id) (hget : PageTracker.get N (PT.new N loc donated) n objs = some (t, loc * N + index, u))
    (hdon : donated = true → n < N ∧ dense = false) (hden : dense = true → n = 1) :
    ∃ s', contribute N mode s id t donated dense = some s' ∧
      Reach N mode s' { g with live := upd g.live id [⟨index, n, objs⟩], held := id :: g.held } ∧
      s'.freed = s.freed ∧ (∀ x, x ≠ id → s'.tr x = s.tr x) ∧ (s'.tr id).loc = loc := by
  obtain ⟨s', e, _, a, b, c⟩ := contribute_spec (h.k hN).1 hno hget hdon hden
  exact ⟨s', e, Reach.contribute id loc n objs index u donated dense h hno hget hdon hden e, a, b, c⟩

/-- C16: freeing a live run always succeeds.  The hugepage is given back at once exactly if this was its last live run,
no part of it that is backed needs to be released first and no treatment holds it; a hugepage held by a treatment is
kept aside; a partially released one waits for the kernel. -/
theorem put_exact (hN : 2 ≤ N) {s : F} {g : Gh} (h : Reach N mode s g) {id : Nat} {A B : List Alloc} {a : Alloc}
    (hl : g.live id = A ++ a :: B) :
    ∃ s' r, put N mode s id ((s.tr id).firstPage N + a.i) a.n a.objs = some (s', r) ∧
      Reach N mode s' (g.put id (A ++ B) r) ∧
      (A ++ B ≠ [] → r = .done none ∧ s'.freed = s.freed) ∧
      (A ++ B = [] → 0 < relPages N (s.tr id) → relPages N (s.tr id) < N →
        r = .wait (N - relPages N (s.tr id)) ∧ s'.freed = s.freed) ∧
      (A ++ B = [] → relPages N (s.tr id) = 0 ∨ relPages N (s.tr id) = N →
        (¬ Pinned g id → r = .done (some id) ∧ s'.freed = s.freed ∧ ¬ owned s' (g.put id (A ++ B) r) id) ∧
        (Pinned g id → r = .done none ∧ s'.freed = id :: s.freed)) ∧
      (∀ x, x ≠ id → s'.tr x = s.tr x) ∧ (s'.tr id).loc = (s.tr id).loc := by
  have hk := (h.k hN).1
  have hid : id ∈ g.held := (hk.held id).2 (by rw [hl]; simp)
  obtain ⟨s', e, hK, hf, _, hne, hloc⟩ := put_full hk hl
  have hpin := pinned_iff hk (Or.inl hid : owned s g id)
  have hrel := hk.rel_eq hid
  rw [← hrel]
  refine ⟨s', _, e, Reach.put id A a B _ h hl e, ?_, ?_, ?_, hne, hloc⟩
  · intro hc
    refine ⟨by unfold putOutcome; rw [if_pos hc], ?_⟩
    rw [hf, if_neg (fun hcc => hc hcc.1)]
  · intro hc h1 h2
    refine ⟨by unfold putOutcome; rw [if_neg (fun hcc => hcc hc), if_pos ⟨h1, h2⟩], ?_⟩
    rw [hf, if_neg (fun hcc => hcc.2.1 ⟨h1, h2⟩)]
  · intro hc h1
    have h2 : ¬ (0 < (s.tr id).relCount ∧ (s.tr id).relCount < N) := by omega
    have eo : putOutcome N s id (A ++ B) = .done (if (s.tr id).dontFree = 0 then some id else none) := by
      unfold putOutcome; rw [if_neg (fun hcc => hcc hc), if_neg h2]
    constructor
    · intro hp
      have h0 : (s.tr id).dontFree = 0 := Classical.byContradiction (fun hcc => hp (hpin.1 hcc))
      have ef : s'.freed = s.freed := by rw [hf, if_neg (fun hcc => hcc.2.2 h0)]
      refine ⟨by rw [eo, if_pos h0], ef, ?_⟩
      rw [eo]
      rintro (hcc | hcc | hcc)
      · have : id ∈ (if A ++ B = [] then g.held.erase id else g.held) := hcc
        rw [if_pos hc] at this
        exact hk.held_nd.not_mem_erase this
      · exact hk.flight_not_held (show id ∈ fl g from hcc) hid
      · rw [ef] at hcc
        exact hk.freed_not_held hcc hid
    · intro hp
      have h0 := hpin.2 hp
      exact ⟨by rw [eo, if_neg h0], by rw [hf, if_pos ⟨hc, h2, h0⟩]⟩

/-- C16: whatever the kernel answers, a waiting `Put` completes: the hugepage, which has no live runs, is given back, or
kept aside if a treatment holds it. -/
theorem putAnswer_exact (hN : 2 ≤ N) {s : F} {g : Gh} (h : Reach N mode s g) {A B : List (Nat × Nat)} {id rest : Nat}
    (hf : g.flight = A ++ (id, rest) :: B) (ok : Bool) :
    g.live id = [] ∧ relPages N (s.tr id) + rest = N ∧
    ∃ s' r, putAnswer N mode s id rest ok = some (s', .done r) ∧ Reach N mode s' { g with flight := A ++ B } ∧
      (¬ Pinned g id → r = some id ∧ s'.freed = s.freed ∧ ¬ owned s' { g with flight := A ++ B } id) ∧
      (Pinned g id → r = none ∧ s'.freed = id :: s.freed) ∧
      s'.unacc = s.unacc + (if ok then rest else 0) ∧ (∀ x, x ≠ id → s'.tr x = s.tr x) := by
  have hk := (h.k hN).1
  have hmem : id ∈ fl g := by unfold fl; rw [hf]; simp
  have how : owned s g id := Or.inr (Or.inl hmem)
  have hpin := pinned_iff hk how
  obtain ⟨s', e, hK, hfr, hun, hne, _⟩ := putAnswer_spec hk hf ok
  have hrel : relPages N (s.tr id) + rest = N := by
    have h1 := hk.rest (id, rest) (by rw [hf]; simp)
    have h2 := (hk.gd id how).cnt
    unfold relPages
    rw [cnt_range, ← h2]
    exact h1
  refine ⟨hk.empty (hk.flight_not_held hmem), hrel, s', _, e, Reach.answer A id rest B ok _ h hf e, ?_, ?_, hun, hne⟩
  · intro hp
    have h0 : (s.tr id).dontFree = 0 := Classical.byContradiction (fun hcc => hp (hpin.1 hcc))
    have ef : s'.freed = s.freed := by rw [hfr, if_pos h0]
    refine ⟨by rw [if_pos h0], ef, ?_⟩
    have hnd := hk.nd
    unfold fl at hnd
    rw [hf] at hnd
    rintro (hc | hc | hc)
    · exact hk.flight_not_held hmem hc
    · have h2 := (List.nodup_append.1 (List.nodup_append.1 hnd).2.1).1
      rw [List.map_append, List.map_cons] at h2
      have hc' : id ∈ (A ++ B).map Prod.fst := hc
      rw [List.map_append] at hc'
      rcases List.mem_append.1 hc' with hc' | hc'
      · exact (List.nodup_append.1 h2).2.2 id hc' id (by simp) rfl
      · exact (List.nodup_cons.1 (List.nodup_append.1 h2).2.1).1 hc'
    · rw [ef] at hc
      exact (List.nodup_append.1 (List.nodup_append.1 hnd).2.1).2.2 id (by simp) id hc rfl
  · intro hp
    have h0 := hpin.2 hp
    exact ⟨by rw [if_neg h0], by rw [hfr, if_neg h0]⟩

/-- C16: after a treatment, `FetchFullyFreedTracker` hands over every hugepage kept aside, each once, none of which has
live runs; nothing kept aside is ever lost. -/
theorem fetch_exact (hN : 2 ≤ N) {s : F} {g : Gh} (h : Reach N mode s g) (ht : g.treat = none) :
    Reach N mode (fetchFreed s).1 g ∧ ((fetchFreed s).2 = none ↔ s.freed = []) ∧
    (∀ id, (fetchFreed s).2 = some id → s.freed = id :: (fetchFreed s).1.freed ∧ g.live id = [] ∧
      ¬ owned (fetchFreed s).1 g id) ∧
    (fetchFreed s).1.tr = s.tr := by
  have hk := (h.k hN).1
  refine ⟨Reach.fetch h ht, ?_, ?_, ?_⟩
  · unfold fetchFreed; cases s.freed <;> simp
  · intro id e
    have hnd := hk.nd
    have hnotheld : ∀ x ∈ s.freed, x ∉ g.held := fun x hx => hk.freed_not_held hx
    unfold fetchFreed at e ⊢
    cases hf : s.freed with
    | nil => rw [hf] at e; simp at e
    | cons x L =>
      rw [hf] at e hnd hnotheld
      simp only [Option.some.injEq] at e
      subst e
      refine ⟨rfl, hk.empty (hnotheld x (by simp)), ?_⟩
      have h2 := (List.nodup_append.1 hnd).2.1
      rintro (hc | hc | hc)
      · exact hnotheld x (by simp) hc
      · exact (List.nodup_append.1 h2).2.2 x hc x (by simp) rfl
      · exact (List.nodup_cons.1 (List.nodup_append.1 h2).2.1).1 hc
  · unfold fetchFreed; cases s.freed <;> rfl

/-! ### C13: what is given to the kernel -/

/-- C13, C15: `ReleasePages` hands only free pages to the kernel, whatever the outcome of the calls; exactly the pages
of successful calls become released pages and are reported (with those released earlier by `Put` and treatments and not
yet reported).  If all calls succeed it reaches the target, or nothing more can be released. -/
theorem releasePages_exact (hN : 2 ≤ N) {s : F} {g : Gh} (h : Reach N mode s g) (desired : Nat) (adjusted : Option Nat)
    (skip : Nat → Bool) (ok : Nat → Nat → Bool) :
    ∃ s' log, releasePages N mode s desired adjusted skip ok = some (s', s.unacc + logSum log, log) ∧
      Reach N mode s' g ∧ (∀ x ∈ log, CallOk N g x) ∧
      (∀ x j, (s'.tr x).Rel j ↔ (s.tr x).Rel j ∨ InLog log x j) ∧ s'.unmapped = s.unmapped + logSum log ∧
      s'.unacc = 0 ∧ s'.freed = s.freed ∧ (∀ x, (s'.tr x).free = (s.tr x).free ∧ (s'.tr x).loc = (s.tr x).loc) ∧
      ((∀ x ∈ log, x.2.ok = true) →
        desired ≤ s.unacc + logSum log ∨ goal desired adjusted ≤ s.unacc + logSum log ∨
        ∀ id, g.live id ≠ [] → skip id = false → usedPages (g.live id) + relPages N (s'.tr id) = N) := by
  have hk := (h.k hN).1
  obtain ⟨s', log, e, hK, hc, hu, hs, hd⟩ := releasePages_spec hk hN desired adjusted skip ok
  refine ⟨s', log, e, Reach.release desired adjusted skip ok _ log h e, hc, hs.rel, hs.unm, hu, hs.freed, hs.free, ?_⟩
  intro hok
  rcases hd hok with h1 | h1 | h1
  · exact Or.inl h1
  · exact Or.inr (Or.inl h1)
  · refine Or.inr (Or.inr ?_)
    intro id hl hsk
    have hid := (hk.held id).2 hl
    rw [← hK.used_eq hid, ← hK.rel_eq hid]
    exact h1 id hid hsk

/-- C13, C16: a treatment always completes, hands only free pages to the kernel, and marks as released only pages of
successful calls and free pages it saw unbacked; allocations are not affected. -/
theorem treatEnd_exact (hN : 2 ≤ N) {s : F} {g : Gh} (h : Reach N mode s g) {A : List Nat} {obs : List Obs}
    (ht : g.treat = some (A, obs.map Obs.id)) (hub : ∀ o ∈ obs, WF N o.unbacked) (stale : Bool) (ok : Nat → Nat → Bool) :
    ∃ s' log ub, treatEnd N mode stale s A obs ok = some (s', log) ∧ Reach N mode s' { g with treat := none } ∧
      (∀ x ∈ log, CallOk N g x) ∧ (∀ y ∈ ub, ∃ o ∈ obs, y = (o.id, o.unbacked) ∧ o.backed = false) ∧
      (∀ x j, (s'.tr x).Rel j ↔ (s.tr x).Rel j ∨ InLog log x j ∨ InUB N s ub x j) ∧
      s'.unacc + s.unmapped = s.unacc + s'.unmapped ∧ s'.freed = s.freed ∧
      (∀ x, (s'.tr x).free = (s.tr x).free ∧ (s'.tr x).loc = (s.tr x).loc) := by
  obtain ⟨hk, hnd⟩ := h.k hN
  obtain ⟨s', log, e, hK, hc, ub, hr, hu⟩ := treatEnd_spec hk ht (hnd _ _ ht) hub stale ok
  exact ⟨s', log, ub, e, Reach.treatEnd A obs stale ok log h ht hub e, hc, hu, hr.rel, hr.acct, hr.freed, hr.free⟩

/-! ### A concrete history (8 pages per hugepage): two hugepages, allocations, a partial release, frees during a
treatment, a free that waits for the kernel. -/

def demo : Option (F × List PutRes × List Nat × Log) := do
  let (t0, _, _) ← PageTracker.get 8 (PT.new 8 10 false) 3 1
  let s ← contribute 8 false (F.init 8) 0 t0 false false
  let (t1, _, _) ← PageTracker.get 8 (PT.new 8 11 true) 5 1
  let s ← contribute 8 false s 1 t1 true false
  let (s, r1) ← tryGet 8 false s 2 1 false
  let (s, r2) ← tryGet 8 false s 3 1 false
  let (s, r3) ← tryGet 8 false s 2 1 false
  let (s, a0) ← put 8 false s 0 83 2 1
  let (s, n, log) ← releasePages 8 false s 2 none (fun _ => false) (fun _ _ => true)
  let s := treatBegin s [1] []
  let (s, a1) ← put 8 false s 1 88 5 1
  let (s, a2) ← put 8 false s 1 93 2 1
  let (s, l2) ← treatEnd 8 false true s [1] [] (fun _ _ => true)
  let (s, a3) ← put 8 false s 0 80 3 1
  let (s, a4) ← put 8 false s 0 85 3 1
  let (s, a5) ← putAnswer 8 false s 0 6 true
  let (s, f) := fetchFreed s
  pure (s, [a0, a1, a2, a3, a4, a5],
    [(r1.map (·.2.1)).getD 0, (r2.map (·.2.1)).getD 0, (r3.map (·.2.1)).getD 0, n, f.getD 99, s.unacc, s.size], log ++ l2)

example : demo.map (·.2) = some ([.done none, .done none, .done none, .done none, .wait 6, .done (some 0)],
    [83, 85, 93, 2, 1, 6, 0], [(0, ⟨3, 2, true⟩)]) := by
  decide +kernel

end Verif.Filler
