import Verif.TimeSeries.Props
/-! The correctness of skipped releases: no decision is counted twice (C54). -/
namespace Verif.TimeSeries

/-! ### Specification -/

/-- What can happen to the correctness tracker. -/
inductive CEv where
  /-- A release of so many pages was skipped because of that peak. -/
  | skipped (epoch pages peak : Nat)
  /-- That many pages are in use. -/
  | peak (epoch t peak : Nat)

/-- One call. -/
def CEv.step (K len : Nat) (c : Corr) : CEv → Option Corr
  | .skipped e n p => c.skipped K e n p
  | .peak e t p => c.updatedPeak K len t e p

/-- Histories: any calls, at any readings of the clock. -/
inductive CReach (K len : Nat) : Corr → List CEv → Prop
  | init {e} : CReach K len (Corr.init e) []
  | step {c c' evs ev} : CReach K len c evs → ev.step K len c = some c' → CReach K len c' (evs ++ [ev])

/-- The pages, and the number, of the decisions of a history. -/
def CEv.dec : CEv → Dec
  | .skipped _ n _ => ⟨n, 1⟩
  | .peak .. => .zero

def sumDec (evs : List CEv) : Dec := evs.foldl (fun d e => d.add e.dec) .zero

/-! ### Proof -/

/-- The entries, newest first, each with a mark: counted as correct. -/
abbrev Ann := List (Bool × CEntry)

/-- An entry counted as correct has seen its peak in a newer epoch. -/
def Evid : Nat → Ann → Prop
  | _, [] => True
  | lg, (b, x) :: r => (b = true → x.at_ ≤ lg) ∧ Evid (max lg x.peak) r

/-- The decisions not counted as correct. -/
def unc : Ann → Dec
  | [] => .zero
  | (b, x) :: r => (if b then Dec.zero else x.dec).add (unc r)

/-- `≤` for both numbers. -/
def Dec.le (a b : Dec) : Prop := a.pages ≤ b.pages ∧ a.count ≤ b.count

theorem Evid.mono : ∀ {A : Ann} {lg lg' : Nat}, lg ≤ lg' → Evid lg A → Evid lg' A
  | [], _, _, _, _ => trivial
  | (b, x) :: r, lg, lg', h, ⟨h1, h2⟩ => ⟨fun hb => Nat.le_trans (h1 hb) h, h2.mono (by omega)⟩

theorem unc_append : ∀ (A B : Ann), unc (A ++ B) = (unc A).add (unc B)
  | [], B => by simp [unc, Dec.add, Dec.zero]
  | (b, x) :: r, B => by
    have := unc_append r B
    simp only [List.cons_append, unc, this, Dec.add, Nat.add_assoc]

/-- The scan counts as correct only what was not, and leaves pending only what is not. -/
theorem scan_spec {peak : Nat} : ∀ (A : Ann) (B : Ann) (lg largest : Nat) (es : List (Entry CEntry)) (correct pending : Dec),
    es.map Entry.payload = A.map Prod.snd → lg ≤ largest → Evid lg (A ++ B) →
    ∃ A2 : Ann, A2.map Prod.snd = A.map Prod.snd ∧ (∀ lg', lg ≤ lg' → peak ≤ lg' → Evid lg' (A2 ++ B)) ∧
      (Corr.scan peak es largest correct pending).1.add (unc A2) = correct.add (unc A) ∧
      ((Corr.scan peak es largest correct pending).2).le (pending.add (unc A2)) := by
  intro A
  induction A with
  | nil =>
    intro B lg largest es correct pending he hl hE
    have : es = [] := by simpa using he
    subst this
    refine ⟨[], rfl, fun lg' h1 _ => hE.mono h1, rfl, ?_⟩
    simp [Corr.scan, unc, Dec.le, Dec.add, Dec.zero]
  | cons a A ih =>
    intro B lg largest es correct pending he hl hE
    obtain ⟨b, x⟩ := a
    cases es with
    | nil => simp at he
    | cons e es =>
      simp only [List.map_cons, List.cons.injEq] at he
      obtain ⟨rfl, he⟩ := he
      obtain ⟨hb, hE⟩ := hE
      obtain ⟨A2, h1, h2, h3, h4⟩ := ih B (max lg e.payload.peak) (max largest e.payload.peak) es
        (if (decide (0 < e.payload.dec.count) && decide (largest < e.payload.at_)) && decide (e.payload.at_ ≤ peak) then
          correct.add e.payload.dec else correct)
        (if (decide (0 < e.payload.dec.count) && decide (largest < e.payload.at_)) && !decide (e.payload.at_ ≤ peak) then
          pending.add e.payload.dec else pending) he (by omega) hE
      simp only [Corr.scan]
      generalize Corr.scan peak es _ _ _ = R at h3 h4 ⊢
      by_cases hhit : (decide (0 < e.payload.dec.count) && decide (largest < e.payload.at_)) = true
      · rw [hhit] at h3 h4
        have hbf : b = false := by
          cases b
          · rfl
          · have := hb rfl
            simp only [Bool.and_eq_true, decide_eq_true_eq] at hhit
            omega
        subst hbf
        by_cases hp : e.payload.at_ ≤ peak
        · refine ⟨(true, e.payload) :: A2, by simp [h1], ?_, ?_, ?_⟩
          · intro lg' g1 g2
            exact ⟨fun _ => Nat.le_trans hp g2, h2 _ (by omega) (by omega)⟩
          · simp [hp, Dec.add, unc, Dec.zero] at h3 ⊢
            omega
          · simp [hp, Dec.le, Dec.add, unc, Dec.zero] at h4 ⊢
            exact h4
        · refine ⟨(false, e.payload) :: A2, by simp [h1], ?_, ?_, ?_⟩
          · intro lg' g1 g2
            exact ⟨(fun h => by cases h), h2 _ (by omega) (by omega)⟩
          · simp [hp, Dec.add, unc] at h3 ⊢
            omega
          · simp [hp, Dec.le, Dec.add, unc] at h4 ⊢
            omega
      · rw [Bool.not_eq_true] at hhit
        rw [hhit] at h3 h4
        refine ⟨(b, e.payload) :: A2, by simp [h1], ?_, ?_, ?_⟩
        · intro lg' g1 g2
          exact ⟨fun h => Nat.le_trans (hb h) g1, h2 _ (by omega) (by omega)⟩
        · simp [Dec.add, unc] at h3 ⊢
          omega
        · simp [Dec.le, Dec.add, unc] at h4 ⊢
          omega

/-- The invariant. -/
structure CInv (K : Nat) (c : Corr) : Prop where
  ex : ∃ (l : Log Upd) (x : CEntry) (A : Ann), Inv K cOps c.tr l ∧
    ((false, x) :: A).map Prod.snd = (groups l).map (fun g => pay cOps g.2) ∧ Evid 0 ((false, x) :: A) ∧ x.peak ≤ c.lastPeak ∧
    (c.correct.add (unc ((false, x) :: A))).le c.total
  sum : (c.correct.add c.pending).le c.total

theorem pay_append {l : List Upd} {u : Upd} : pay cOps ([u] ++ l) = cOps.report (pay cOps l) u := rfl

theorem Dec.le_of {a b c : Dec} (h : (a.add b).le c) : a.le c := by
  unfold Dec.le Dec.add at *; dsimp only at *; omega

/-- How a report changes the entries. -/
theorem report_ann {K : Nat} {c : Corr} {x : CEntry} {A : Ann} {l : Log Upd} (hK : 0 < K) (hI : Inv K cOps c.tr l)
    (hA : ((false, x) :: A).map Prod.snd = (groups l).map (fun g => pay cOps g.2)) (e : Nat) (u : Upd) :
    ∃ (b : Bool) (tr : Tr CEntry) (x' : CEntry) (A' : Ann), report K cOps c.tr e u = some (b, tr) ∧ Inv K cOps tr (push l (e, some u)) ∧
      ((false, x') :: A').map Prod.snd = (groups (push l (e, some u))).map (fun g => pay cOps g.2) ∧
      ((b = false ∧ x' = cOps.report cOps.nil u ∧ A' = []) ∨
       (b = false ∧ x' = cOps.report x u ∧ A' = A) ∨
       (b = true ∧ x' = cOps.report cOps.nil u ∧ A' = (false, x) :: A)) := by
  obtain ⟨tr, h1, h2⟩ := report_inv hK hI e u
  cases hg : groups l with
  | nil => rw [hg] at hA; simp at hA
  | cons g r =>
    have hgp := groups_push hg e (some u)
    have hlast : g.1 = c.tr.last := by
      have := hI.head
      rw [hg] at this
      simpa using this
    rw [hg] at hA
    simp only [List.map_cons, List.cons.injEq] at hA
    refine ⟨decide (c.tr.last < e), tr, ?_⟩
    by_cases c1 : e < g.1
    · rw [if_pos c1] at hgp
      refine ⟨cOps.report cOps.nil u, [], h1, h2, by rw [hgp]; rfl, .inl ⟨decide_eq_false (by omega), rfl, rfl⟩⟩
    · rw [if_neg c1] at hgp
      by_cases c2 : e = g.1
      · rw [if_pos c2] at hgp
        refine ⟨cOps.report x u, A, h1, h2, ?_, .inr (.inl ⟨decide_eq_false (by omega), rfl, rfl⟩)⟩
        rw [hgp]
        simp only [List.map_cons, List.cons.injEq]
        refine ⟨?_, hA.2⟩
        rw [hA.1]; rfl
      · rw [if_neg c2] at hgp
        refine ⟨cOps.report cOps.nil u, (false, x) :: A, h1, h2, ?_, .inr (.inr ⟨decide_eq_true (by omega), rfl, rfl⟩)⟩
        rw [hgp]
        simp only [List.map_cons, List.cons.injEq]
        exact ⟨rfl, hA.1, hA.2⟩

theorem init_cinv {K : Nat} (hK : 0 < K) (e : Nat) : CInv K (Corr.init e) :=
  ⟨⟨[(e, none)], ⟨.zero, 0, 0⟩, [], init_inv hK e, rfl, ⟨(fun h => by cases h), trivial⟩, Nat.le_refl _, by
    simp [Dec.le, Dec.add, unc, Corr.init, Dec.zero]⟩, by simp [Dec.le, Dec.add, Corr.init, Dec.zero]⟩

theorem skipped_cinv {K : Nat} {c : Corr} (hK : 0 < K) (h : CInv K c) (e n p : Nat) :
    ∃ c', c.skipped K e n p = some c' ∧ CInv K c' ∧ c'.total = c.total.add ⟨n, 1⟩ := by
  obtain ⟨⟨l, x, A, hI, hA, hE, hpk, hU⟩, hsum⟩ := h
  obtain ⟨b, tr, x', A', h1, h2, h3, h4⟩ := report_ann hK hI hA e ⟨⟨n, 1⟩, p, 0⟩
  unfold Corr.skipped
  rw [h1]
  refine ⟨_, rfl, ⟨⟨_, x', A', h2, h3, ?_, ?_, ?_⟩, ?_⟩, rfl⟩
  · rcases h4 with ⟨-, rfl, rfl⟩ | ⟨-, rfl, rfl⟩ | ⟨-, rfl, rfl⟩
    · exact ⟨(fun h => by cases h), trivial⟩
    · exact ⟨(fun h => by cases h), hE.2.mono (by simp [cOps])⟩
    · exact ⟨(fun h => by cases h), hE.mono (by omega)⟩
  · rcases h4 with ⟨-, rfl, rfl⟩ | ⟨-, rfl, rfl⟩ | ⟨-, rfl, rfl⟩
    · simp [cOps]
    · simpa [cOps] using hpk
    · simp [cOps]
  · have hle := Dec.le_of hsum
    rcases h4 with ⟨-, rfl, rfl⟩ | ⟨-, rfl, rfl⟩ | ⟨-, rfl, rfl⟩
    · simp [cOps, Dec.le, Dec.add, unc, Dec.zero] at hle ⊢; omega
    · simp [cOps, Dec.le, Dec.add, unc, Dec.zero] at hU ⊢; omega
    · simp [cOps, Dec.le, Dec.add, unc, Dec.zero] at hU ⊢; omega
  · simp [Dec.le, Dec.add] at hsum ⊢; omega

theorem peak_cinv {K len t : Nat} {c : Corr} (hK : 0 < K) (hl : 0 < len) (h : CInv K c) (e p : Nat) :
    ∃ c', c.updatedPeak K len t e p = some c' ∧ CInv K c' ∧ c'.total = c.total := by
  obtain ⟨⟨l, x, A, hI, hA, hE, hpk, hU⟩, hsum⟩ := h
  obtain ⟨b, tr, x', A', h1, h2, h3, h4⟩ := report_ann hK hI hA e ⟨.zero, 0, p⟩
  obtain ⟨r, h5, h6⟩ := iter_spec hK hl h2 (some t)
  unfold Corr.updatedPeak
  rw [h1]
  dsimp only
  rw [h5]
  -- what is visited after the current epoch is a prefix of the older entries
  have hpre : ∃ V B, A' = V ++ B ∧ r.tail.map Entry.payload = V.map Prod.snd := by
    have hpref : ∀ (G : List (Nat × List Upd)) (E : Nat), G.Pairwise (fun a b => b.1 < a.1) → ∀ k,
        ∃ n, ((G.take k).filter (fun y => decide (now (push l (e, some ⟨.zero, 0, p⟩)) < y.1 + E))) = G.take n := by
      intro G E
      induction G with
      | nil => intro _ k; exact ⟨0, by simp⟩
      | cons g G ih =>
        intro hd k
        rw [List.pairwise_cons] at hd
        cases k with
        | zero => exact ⟨0, by simp⟩
        | succ k =>
          rw [List.take_succ_cons, List.filter_cons]
          by_cases hg : now (push l (e, some ⟨.zero, 0, p⟩)) < g.1 + E
          · rw [if_pos (decide_eq_true hg)]
            obtain ⟨n, hn⟩ := ih hd.2 k
            exact ⟨n + 1, by rw [hn, List.take_succ_cons]⟩
          · rw [if_neg (by simpa using hg)]
            refine ⟨0, ?_⟩
            rw [List.take_zero, List.filter_eq_nil_iff]
            intro y hy
            have := hd.1 y (List.mem_of_mem_take hy)
            simp only [decide_eq_true_eq]
            omega
    obtain ⟨n, hn⟩ := hpref (groups (push l (e, some ⟨.zero, 0, p⟩))) (ceilDiv t len) h2.desc K
    simp only at h6
    rw [hn, List.map_take, ← h3] at h6
    refine ⟨A'.take (n - 1), A'.drop (n - 1), (List.take_append_drop _ _).symm, ?_⟩
    cases n with
    | zero =>
      have : r = [] := by simpa using h6
      rw [this]; simp
    | succ n =>
      cases r with
      | nil => simp at h6
      | cons y r =>
        simp only [List.map_cons, List.take_succ_cons, List.cons.injEq] at h6
        rw [List.tail_cons, h6.2, Nat.add_sub_cancel, List.map_take]
  obtain ⟨V, B, hVB, hrV⟩ := hpre
  have hnewpk : p ≤ x'.peak := by
    rcases h4 with ⟨-, rfl, -⟩ | ⟨-, rfl, -⟩ | ⟨-, rfl, -⟩ <;> simp [cOps] <;> omega
  -- the evidence so far, for the older entries
  have hev : ∃ lg, lg ≤ (if b then 0 else c.lastPeak) ∧ lg ≤ x'.peak ∧ Evid lg A' ∧
      x'.peak ≤ max (if b then 0 else c.lastPeak) p := by
    rcases h4 with ⟨rfl, rfl, rfl⟩ | ⟨rfl, rfl, rfl⟩ | ⟨rfl, rfl, rfl⟩
    · exact ⟨0, by omega, by omega, trivial, by simp [cOps]; omega⟩
    · refine ⟨x.peak, by simpa using hpk, by simp [cOps]; omega, hE.2.mono (by omega), by simp [cOps]; omega⟩
    · exact ⟨0, by omega, by omega, hE, by simp [cOps]⟩
  obtain ⟨lg, g1, g2, g3, g4⟩ := hev
  rw [hVB] at g3
  obtain ⟨V2, s1, s2, s3, s4⟩ := scan_spec (peak := p) V B lg _ r.tail c.correct .zero hrV g1 g3
  have hU2 : (c.correct.add ((unc V).add (unc B))).le c.total := by
    rw [← unc_append, ← hVB]
    rcases h4 with ⟨-, rfl, rfl⟩ | ⟨-, rfl, rfl⟩ | ⟨-, rfl, rfl⟩
    · have := Dec.le_of hsum
      simp [Dec.le, Dec.add, unc, Dec.zero] at this ⊢; omega
    · simp [Dec.le, Dec.add, unc] at hU ⊢; omega
    · exact hU
  have hx0 : x'.dec = .zero ∨ (x'.dec = x.dec ∧ A' = A ∧ (c.correct.add (unc ((false, x) :: A))).le c.total) := by
    rcases h4 with ⟨-, rfl, rfl⟩ | ⟨-, rfl, rfl⟩ | ⟨-, rfl, rfl⟩
    · exact .inl rfl
    · exact .inr ⟨by simp [cOps, Dec.add, Dec.zero], rfl, hU⟩
    · exact .inl rfl
  have hU3 : (c.correct.add (x'.dec.add ((unc V).add (unc B)))).le c.total := by
    rcases hx0 with h | ⟨h, hAA, hU⟩
    · rw [h]; simpa [Dec.le, Dec.add, Dec.zero] using hU2
    · rw [h]
      rw [← hAA, hVB] at hU
      have e : unc ((false, x) :: (V ++ B)) = x.dec.add ((unc V).add (unc B)) := by simp [unc, unc_append]
      rw [e] at hU
      exact hU
  generalize hR : Corr.scan p r.tail (if b then 0 else c.lastPeak) c.correct .zero = R at s3 s4
  refine ⟨_, rfl, ⟨⟨_, x', V2 ++ B, h2, ?_, ?_, ?_, ?_⟩, ?_⟩, rfl⟩
  · rw [← h3, hVB]; simp [s1]
  · exact ⟨(fun h => by cases h), s2 _ (by omega) (by omega)⟩
  · exact g4
  · dsimp only
    rw [hR]
    have e : unc ((false, x') :: (V2 ++ B)) = x'.dec.add ((unc V2).add (unc B)) := by simp [unc, unc_append]
    rw [e]
    unfold Dec.le Dec.add at *
    simp only [Dec.mk.injEq] at s3
    dsimp only at *
    omega
  · dsimp only
    rw [hR]
    unfold Dec.le Dec.add at *
    simp only [Dec.mk.injEq] at s3
    simp only [Dec.zero] at s4
    dsimp only at *
    omega

theorem CReach.cinv {K len : Nat} (hK : 0 < K) (hl : 0 < len) {c : Corr} {evs : List CEv} (h : CReach K len c evs) :
    CInv K c ∧ c.total = sumDec evs := by
  induction h with
  | init => exact ⟨init_cinv hK _, rfl⟩
  | @step c c' evs ev _ hs ih =>
    have hsum : sumDec (evs ++ [ev]) = (sumDec evs).add ev.dec := by unfold sumDec; rw [List.foldl_append]; rfl
    cases ev with
    | skipped e n p =>
      obtain ⟨c2, h1, h2, h3⟩ := skipped_cinv hK ih.1 e n p
      rw [CEv.step, h1] at hs
      cases hs
      exact ⟨h2, by rw [h3, hsum, ih.2]; rfl⟩
    | peak e t p =>
      obtain ⟨c2, h1, h2, h3⟩ := peak_cinv (t := t) hK hl ih.1 e p
      rw [CEv.step, h1] at hs
      cases hs
      exact ⟨h2, by rw [h3, hsum, ih.2]; simp [CEv.dec, Dec.add, Dec.zero]⟩

/-! ### Properties -/

/-- C54: for any sequence of skipped releases and updated peaks, at any readings of the clock, forwards or backwards: the
tracker counts exactly the decisions made, and those it counts as correct and those it counts as pending are not more than
all of them, in pages and in number.  So no decision is counted as correct twice, and the difference and the percentages that are
printed (lines 233-256) are those of a part. -/
theorem never_confirmed_twice {K len : Nat} (hK : 0 < K) (hl : 0 < len) {c : Corr} {evs : List CEv} (h : CReach K len c evs) :
    c.total = sumDec evs ∧ c.correct.pages + c.pending.pages ≤ c.total.pages ∧ c.correct.count + c.pending.count ≤ c.total.count := by
  obtain ⟨h1, h2⟩ := h.cinv hK hl
  exact ⟨h2, h1.sum.1, h1.sum.2⟩

/-- No call fails. -/
theorem corr_calls_succeed {K len : Nat} (hK : 0 < K) (hl : 0 < len) {c : Corr} {evs : List CEv} (h : CReach K len c evs) (ev : CEv) :
    (ev.step K len c).isSome = true := by
  obtain ⟨h1, -⟩ := h.cinv hK hl
  cases ev with
  | skipped e n p => obtain ⟨c2, h2, -⟩ := skipped_cinv hK h1 e n p; rw [CEv.step, h2]; rfl
  | peak e t p => obtain ⟨c2, h2, -⟩ := peak_cinv (t := t) hK hl h1 e p; rw [CEv.step, h2]; rfl

/-- The histories of the filler's tracker: its readings of the clock are any. -/
inductive SubReach (K len summary : Nat) : Sub → List CEv → Prop
  | init {e e'} : SubReach K len summary ⟨TimeSeries.init sOps e, Corr.init e'⟩ []
  | report {s s' evs e e' v} : SubReach K len summary s evs → Sub.report K len summary s e e' v = some s' → SubReach K len summary s' evs
  | skipped {s s' evs e n p} : SubReach K len summary s evs → Sub.skipped K s e n p = some s' →
      SubReach K len summary s' (if n = 0 then evs else evs ++ [.skipped e n p])

theorem sumDec_snoc (evs : List CEv) (ev : CEv) : sumDec (evs ++ [ev]) = (sumDec evs).add ev.dec := by
  unfold sumDec; rw [List.foldl_append]; rfl

/-- C54, for the filler's tracker. -/
theorem filler_never_confirmed_twice {K len summary : Nat} (hK : 0 < K) (hl : 0 < len) {s : Sub} {evs : List CEv}
    (h : SubReach K len summary s evs) : s.corr.total = sumDec evs ∧
      s.corr.correct.pages + s.corr.pending.pages ≤ s.corr.total.pages ∧
      s.corr.correct.count + s.corr.pending.count ≤ s.corr.total.count := by
  have key : ∃ evs', CReach K len s.corr evs' ∧ sumDec evs' = sumDec evs := by
    induction h with
    | init => exact ⟨[], .init, rfl⟩
    | @report s s' evs e e' v _ hr ih =>
      obtain ⟨evs', h1, h2⟩ := ih
      unfold Sub.report at hr
      split at hr
      · cases hr
      · split at hr
        · simp only [Option.map_eq_some_iff] at hr
          obtain ⟨c, hc, rfl⟩ := hr
          exact ⟨_, .step (ev := .peak e' (summary + len) _) h1 hc, by rw [sumDec_snoc, h2]; simp [CEv.dec, Dec.add, Dec.zero]⟩
        · cases hr; exact ⟨evs', h1, h2⟩
    | @skipped s s' evs e n p _ hr ih =>
      obtain ⟨evs', h1, h2⟩ := ih
      unfold Sub.skipped at hr
      split at hr
      · rename_i hn
        cases hr
        rw [if_pos hn]
        exact ⟨evs', h1, h2⟩
      · rename_i hn
        simp only [Option.map_eq_some_iff] at hr
        obtain ⟨c, hc, rfl⟩ := hr
        rw [if_neg hn]
        exact ⟨_, .step (ev := .skipped e n p) h1 hc, by rw [sumDec_snoc, sumDec_snoc, h2]⟩
  obtain ⟨evs', h1, h2⟩ := key
  rw [← h2]
  exact never_confirmed_twice hK hl h1

end Verif.TimeSeries
