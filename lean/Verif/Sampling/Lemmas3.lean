import Verif.Sampling.Lemmas2
/-
The peak heap profile when calls do not overlap.
-/
namespace Verif.Sampling

theorem count_le_hCount (x : Sample) : ∀ l : List Sample, l.count x ≤ hCount x.handle l
  | [] => by simp [hCount, total]
  | a :: l => by
    have ih := count_le_hCount x l
    unfold hCount at ih ⊢
    rw [total_cons, List.count_cons]
    by_cases ha : a = x
    · subst ha
      simp
      omega
    · have : (a == x) = false := by simpa using ha
      rw [this]
      simp
      omega

theorem pLive_le (x : Sample) (pc : Pc) : pLive x pc ≤ pHeld x pc := by
  cases pc <;> simp [pLive, pHeld]

theorem sum_mono {f g : Pc → Nat} (h : ∀ pc, f pc ≤ g pc) : ∀ l : List Pc,
    (l.map f).sum ≤ (l.map g).sum
  | [] => by simp
  | a :: l => by
    have h1 := sum_mono h l
    have h2 := h a
    simp only [List.map_cons, List.sum_cons]
    omega

theorem live_le {A : Arith} {σ : State} (inv : Acc A σ) (x : Sample) :
    σ.live.count x ≤ (samplesOf σ.trace).count x := by
  have h1 := inv.live x
  have h2 := inv.held x
  have h3 := sum_mono (pLive_le x) σ.calls
  omega

theorem live_nodup {A : Arith} {σ : State} (inv : Acc A σ) : σ.live.Nodup := by
  rw [List.nodup_iff_count]
  intro x
  have h1 := live_le inv x
  have h2 := count_le_hCount x (samplesOf σ.trace)
  have h3 := inv.once x.handle
  omega

theorem total_perm (f : Sample → Nat) {l l' : List Sample} (h : l.Perm l') : total f l = total f l' := by
  induction h with
  | nil => rfl
  | cons x _ ih => rw [total_cons, total_cons, ih]
  | swap x y l => simp only [total_cons]; omega
  | trans _ _ ih1 ih2 => rw [ih1, ih2]

/-- All calls but one are done. -/
theorem sum_solo (f : Pc → Nat) (hd : f .done = 0) : ∀ (l : List Pc) (i : Nat) (pc : Pc),
    l[i]? = some pc → (∀ j pc', j ≠ i → l[j]? = some pc' → pc' = .done) → (l.map f).sum = f pc
  | [], i, pc, h, _ => by simp at h
  | a :: l, 0, pc, h, hs => by
    simp only [List.getElem?_cons_zero, Option.some.injEq] at h
    subst h
    have : (l.map f).sum = 0 := by
      have : ∀ x ∈ l, x = .done := by
        intro x hx
        obtain ⟨k, hk⟩ := List.getElem?_of_mem hx
        exact hs (k + 1) x (by omega) (by simpa using hk)
      clear hs
      induction l with
      | nil => rfl
      | cons b l ih =>
        rw [List.map_cons, List.sum_cons, this b List.mem_cons_self, hd,
          ih (fun x hx => this x (List.mem_cons_of_mem _ hx))]
    simp [this]
  | a :: l, i + 1, pc, h, hs => by
    have h0 : a = .done := hs 0 a (by omega) rfl
    simp only [List.getElem?_cons_succ] at h
    have := sum_solo f hd l i pc h (fun j pc' hj hj' => hs (j + 1) pc' (by omega) (by simpa using hj'))
    rw [List.map_cons, List.sum_cons, h0, hd, this]
    omega

def Low (A : Arith) (σ : State) : Prop := A.newPeak σ.size σ.peakSize = false
def PeakOk (A : Arith) (σ : State) : Prop := (total A.bytes σ.peak : Int) = σ.peakSize

/-- What holds when the one call in flight is at `pc`. -/
def Fact (A : Arith) (σ : State) : Pc → Prop
  | .took _ | .fragged _ | .reported _ | .registered _ | .unsampled _ | .unregistered _ =>
    Low A σ ∧ PeakOk A σ
  | .sampled _ => PeakOk A σ
  | .peakRead _ p => p = σ.peakSize ∧ PeakOk A σ
  | .wantLock _ | .holding _ | .locked _ => A.newPeak σ.size σ.peakSize = true ∧ PeakOk A σ
  | .readSize _ v => v = σ.size ∧ A.newPeak σ.size σ.peakSize = true ∧ PeakOk A σ
  | .saving _ => σ.peakSize = σ.size ∧ σ.window = some (σ.live, σ.live)
  | .done => True

structure SInv (A : Arith) (σ : State) : Prop where
  solo : ∀ (i j : Nat) (pc pc' : Pc), i ≠ j → σ.calls[i]? = some pc → σ.calls[j]? = some pc' →
    pc = .done ∨ pc' = .done
  fact : ∀ (i : Nat) (pc : Pc), σ.calls[i]? = some pc → Fact A σ pc
  quiet : Quiet σ → Low A σ ∧ PeakOk A σ

theorem solo_set {l : List Pc} {i : Nat} {pc : Pc} (pc' : Pc)
    (h : ∀ (i j : Nat) (pc pc' : Pc), i ≠ j → l[i]? = some pc → l[j]? = some pc' → pc = .done ∨ pc' = .done)
    (hi : l[i]? = some pc) (hne : pc ≠ .done) :
    (∀ (j : Nat) (q : Pc), j ≠ i → (l.set i pc')[j]? = some q → q = .done) ∧ (l.set i pc')[i]? = some pc' := by
  refine ⟨?_, ?_⟩
  · intro j q hj hq
    rw [List.getElem?_set_ne (by omega)] at hq
    exact (h i j pc q (by omega) hi hq).resolve_left hne
  · rw [List.getElem?_set_self]
    rcases Nat.lt_or_ge i l.length with h3 | h3
    · exact h3
    · rw [List.getElem?_eq_none h3] at hi; cases hi

theorem sinv_set {A : Arith} {σ τ : State} {i : Nat} {pc pc' : Pc} (inv : SInv A σ)
    (hi : σ.calls[i]? = some pc) (hne : pc ≠ .done) (hc : τ.calls = σ.calls.set i pc')
    (hf : Fact A τ pc') (hq : pc' = .done → Low A τ ∧ PeakOk A τ) : SInv A τ := by
  obtain ⟨h1, h2⟩ := solo_set pc' inv.solo hi hne
  rw [← hc] at h1 h2
  refine ⟨?_, ?_, ?_⟩
  · intro a b p q hab ha hb
    by_cases hai : a = i
    · exact .inr (h1 b q (by omega) hb)
    · exact .inl (h1 a p hai ha)
  · intro j q hj
    by_cases hji : j = i
    · subst hji
      rw [h2, Option.some.injEq] at hj
      subst hj
      exact hf
    · rw [h1 j q hji hj]
      trivial
  · intro hqu
    exact hq (hqu pc' (List.mem_of_getElem? h2))

/-- Commands of no concern to calls and peaks. -/
theorem sinv_other {A : Arith} {σ τ : State} (inv : SInv A σ) (h1 : τ.calls = σ.calls)
    (h2 : τ.size = σ.size) (h3 : τ.peakSize = σ.peakSize) (h4 : τ.peak = σ.peak)
    (h5 : τ.window = σ.window) (h6 : τ.live = σ.live) : SInv A τ := by
  refine ⟨by rw [h1]; exact inv.solo, ?_, ?_⟩
  · intro i pc hi
    rw [h1] at hi
    have := inv.fact i pc hi
    cases pc <;> simp only [Fact, Low, PeakOk] at this ⊢ <;>
      first | trivial | (rw [h2, h3, h4]; exact this) | (rw [h3, h4]; exact this) |
        (rw [h2, h3]; exact this) | (rw [h2, h3, h5, h6]; exact this)
  · intro hq
    have := inv.quiet (fun pc hpc => hq pc (h1 ▸ hpc))
    unfold Low PeakOk at this ⊢
    rw [h2, h3, h4]
    exact this

theorem sinv_push {A : Arith} {σ τ : State} {pc : Pc} (hq : Quiet σ)
    (hc : τ.calls = σ.calls ++ [pc]) (hne : pc ≠ .done) (hf : Fact A τ pc) : SInv A τ := by
  have key : ∀ j q, τ.calls[j]? = some q → q = .done ∨ (j = σ.calls.length ∧ q = pc) := by
    intro j q hj
    rw [hc] at hj
    rcases Nat.lt_trichotomy j σ.calls.length with h | h | h
    · rw [List.getElem?_append_left h] at hj
      exact .inl (hq q (List.mem_of_getElem? hj))
    · subst h
      rw [List.getElem?_append_right (Nat.le_refl _)] at hj
      simp at hj
      exact .inr ⟨rfl, hj.symm⟩
    · rw [List.getElem?_eq_none (by simp; omega)] at hj
      cases hj
  refine ⟨?_, ?_, ?_⟩
  · intro i j p q hij hi hj
    rcases key i p hi with h | ⟨h, -⟩
    · exact .inl h
    · rcases key j q hj with h' | ⟨h', -⟩
      · exact .inr h'
      · omega
  · intro j q hj
    rcases key j q hj with h | ⟨-, h⟩
    · rw [h]; trivial
    · rw [h]; exact hf
  · intro hqq
    exact absurd (hqq pc (by rw [hc]; simp)) hne

theorem sinv_goStep {A : Arith} (hA : Sane A) {σ τ : State} {i : Nat} {pc : Pc} (acc : Acc A σ)
    (inv : SInv A σ) (hi : σ.calls[i]? = some pc) (hs : goStep A σ i pc = .ok τ) : SInv A τ := by
  have hfact := inv.fact i pc hi
  cases pc with
  | took s | fragged s | reported s =>
    simp only [goStep, Out.ok.injEq] at hs
    subst hs
    exact sinv_set inv hi (by simp) rfl hfact (fun h => by cases h)
  | registered s =>
    simp only [goStep, Out.ok.injEq] at hs
    subst hs
    exact sinv_set inv hi (by simp) rfl hfact.2 (fun h => by cases h)
  | sampled s =>
    simp only [goStep] at hs
    split at hs
    · rename_i h
      rw [hA.on] at h
      cases h
    · simp only [Out.ok.injEq] at hs
      subst hs
      exact sinv_set inv hi (by simp) rfl ⟨rfl, hfact⟩ (fun h => by cases h)
  | peakRead s p =>
    simp only [goStep] at hs
    obtain ⟨hp, hok⟩ := hfact
    split at hs
    · rename_i h
      simp only [Out.ok.injEq] at hs
      subst hs
      refine sinv_set inv hi (by simp) rfl trivial fun _ => ⟨?_, hok⟩
      rw [hp] at h
      show A.newPeak σ.size σ.peakSize = false
      simpa using h
    · rename_i h
      simp only [Out.ok.injEq] at hs
      subst hs
      refine sinv_set inv hi (by simp) rfl ⟨?_, hok⟩ (fun h => by cases h)
      rw [hp] at h
      simpa using h
  | wantLock s =>
    simp only [goStep] at hs
    split at hs
    · cases hs
    · simp only [Out.ok.injEq] at hs
      subst hs
      exact sinv_set inv hi (by simp) rfl hfact (fun h => by cases h)
  | holding s =>
    simp only [goStep] at hs
    split at hs
    · rename_i h
      rw [hfact.1] at h
      cases h
    · simp only [Out.ok.injEq] at hs
      subst hs
      exact sinv_set inv hi (by simp) rfl hfact (fun h => by cases h)
  | locked s =>
    simp only [goStep, Out.ok.injEq] at hs
    subst hs
    exact sinv_set inv hi (by simp) rfl ⟨rfl, hfact⟩ (fun h => by cases h)
  | readSize s v =>
    simp only [goStep, Out.ok.injEq] at hs
    subst hs
    exact sinv_set inv hi (by simp) rfl ⟨hfact.1, rfl⟩ (fun h => by cases h)
  | saving s => cases hs
  | unsampled s =>
    simp only [goStep, Out.ok.injEq] at hs
    subst hs
    exact sinv_set inv hi (by simp) rfl hfact (fun h => by cases h)
  | unregistered s =>
    simp only [goStep] at hs
    split at hs
    · split at hs
      · cases hs
      · simp only [Out.ok.injEq] at hs
        subst hs
        exact sinv_set inv hi (by simp) rfl trivial (fun _ => hfact)
    · simp only [Out.ok.injEq] at hs
      subst hs
      exact sinv_set inv hi (by simp) rfl trivial (fun _ => hfact)
  | done => cases hs

theorem low_self {A : Arith} (hA : Sane A) (v : Int) (hv : 0 ≤ v) : A.newPeak v v = false := by
  cases h : A.newPeak v v with
  | false => rfl
  | true => have := hA.grows v v hv h; omega

theorem sinv_step {A : Arith} (hA : Sane A) {σ τ : State} {c : Cmd} (acc : Acc A σ)
    (inv : SInv A σ) (hs : step A σ c = .ok τ) (hq : ∀ w r a, c = .malloc w r a → Quiet σ)
    (hq' : ∀ s, c = .free s → Quiet σ) : SInv A τ := by
  cases c with
  | malloc w r a =>
    have hqu := hq w r a rfl
    simp only [step] at hs
    split at hs
    · simp only [Out.ok.injEq] at hs
      subst hs
      exact sinv_push hqu rfl (by simp) (inv.quiet hqu)
    · cases hs
  | free s =>
    have hqu := hq' s rfl
    simp only [step] at hs
    split at hs
    · simp only [Out.ok.injEq] at hs
      subst hs
      obtain ⟨h1, h2⟩ := inv.quiet hqu
      exact sinv_push hqu rfl (by simp) ⟨hA.mono _ _ _ (by show σ.size - _ ≤ σ.size; omega) h1, h2⟩
    · cases hs
  | go i =>
    simp only [step] at hs
    cases hpc : σ.calls[i]? with
    | none => rw [hpc] at hs; cases hs
    | some pc => rw [hpc] at hs; exact sinv_goStep hA acc inv hpc hs
  | save i copied =>
    simp only [step] at hs
    split at hs
    · rename_i s must may hpc hw
      split at hs
      · rename_i hcond
        obtain ⟨c1, c2, c3⟩ := hcond
        simp only [Out.ok.injEq] at hs
        subst hs
        obtain ⟨f1, f2⟩ := inv.fact i _ hpc
        rw [hw, Option.some.injEq, Prod.mk.injEq] at f2
        obtain ⟨rfl, rfl⟩ := f2
        obtain ⟨hsolo, -⟩ := solo_set (.saving s) inv.solo hpc (by simp)
        have hsame : σ.calls.set i (.saving s) = σ.calls := by
          apply List.ext_getElem?
          intro j
          by_cases hj : i = j
          · subst hj
            rw [hpc]
            exact (solo_set (.saving s) inv.solo hpc (by simp)).2
          · rw [List.getElem?_set_ne hj]
        rw [hsame] at hsolo
        have hperm : copied.Perm σ.live :=
          (List.perm_ext_iff_of_nodup c3 (live_nodup acc)).2 fun x => ⟨c2 x, c1 x⟩
        have hlive : σ.live.Perm (s :: σ.owned) := by
          rw [List.perm_iff_count]
          intro x
          rw [acc.live x, sum_solo (pLive x) rfl σ.calls i _ hpc hsolo, List.count_cons]
          simp only [pLive]
          by_cases hx : s = x <;> simp [hx]
        have hsize : σ.size = (total A.bytes copied : Int) := by
          rw [total_perm _ (hperm.trans hlive), total_cons, acc.size,
            sum_solo (pSize A) rfl σ.calls i _ hpc hsolo]
          simp only [pSize]
          omega
        refine sinv_set inv hpc (by simp) rfl trivial fun _ => ⟨?_, ?_⟩
        · show A.newPeak σ.size σ.peakSize = false
          rw [f1]
          exact low_self hA _ (by have := acc.size; omega)
        · show (total A.bytes copied.reverse : Int) = σ.peakSize
          rw [total_perm _ (List.reverse_perm copied), f1, hsize]
      · cases hs
    · cases hs
  | start tok =>
    simp only [step] at hs
    split at hs
    · simp only [Out.ok.injEq] at hs
      subst hs
      exact sinv_other inv rfl rfl rfl rfl rfl rfl
    · cases hs
  | stop tok =>
    simp only [step] at hs
    split at hs
    · split at hs
      · cases hs
      · simp only [Out.ok.injEq] at hs
        subst hs
        exact sinv_other inv rfl rfl rfl rfl rfl rfl
    · simp only [Out.ok.injEq] at hs
      subst hs
      exact sinv_other inv rfl rfl rfl rfl rfl rfl
    · cases hs
  | drop tok =>
    simp only [step] at hs
    split at hs
    · split at hs
      · cases hs
      · simp only [Out.ok.injEq] at hs
        subst hs
        exact sinv_other inv rfl rfl rfl rfl rfl rfl
    · simp only [Out.ok.injEq] at hs
      subst hs
      exact sinv_other inv rfl rfl rfl rfl rfl rfl
    · cases hs
  | dump =>
    simp only [step] at hs
    split at hs
    · cases hs
    · simp only [Out.ok.injEq] at hs
      subst hs
      exact sinv_other inv rfl rfl rfl rfl rfl rfl

theorem Seq.reach {A : Arith} {σ : State} (h : Seq A σ) : Reach A σ := by
  induction h with
  | init => exact .init
  | step _ hs _ _ ih => exact .step ih hs

theorem seq_sinv {A : Arith} (hA : Sane A) {σ : State} (h : Seq A σ) : SInv A σ := by
  induction h with
  | init =>
    refine ⟨?_, ?_, ?_⟩
    · intro i j pc pc' _ hi; simp [Sampling.init] at hi
    · intro i pc hi; simp [Sampling.init] at hi
    · intro _; exact ⟨low_self hA 0 (by omega), rfl⟩
  | step hr hs hq hq' ih => exact sinv_step hA (reach_acc hr.reach) ih hs hq hq'

/-- The recorded peak never goes down. -/
theorem seq_peak_mono {A : Arith} (hA : Sane A) {σ τ : State} {c : Cmd} (h : Seq A σ)
    (hs : step A σ c = .ok τ) : σ.peakSize ≤ τ.peakSize := by
  have inv := seq_sinv hA h
  cases c with
  | go i =>
    simp only [step] at hs
    cases hpc : σ.calls[i]? with
    | none => rw [hpc] at hs; cases hs
    | some pc =>
      rw [hpc] at hs
      have hf := inv.fact i pc hpc
      cases pc with
      | readSize s v =>
        simp only [goStep, Out.ok.injEq] at hs
        subst hs
        obtain ⟨h1, h2, h3⟩ := hf
        unfold PeakOk at h3
        have := hA.grows _ _ (by omega) h2
        show σ.peakSize ≤ v
        omega
      | saving s => cases hs
      | done => cases hs
      | took s | fragged s | reported s | registered s | locked s | unsampled s =>
        simp only [goStep, Out.ok.injEq] at hs
        subst hs
        exact Int.le_refl _
      | sampled s | peakRead s p | wantLock s | holding s =>
        simp only [goStep] at hs
        split at hs
        · first
            | cases hs; done
            | (simp only [Out.ok.injEq] at hs; subst hs; exact Int.le_refl _)
        · simp only [Out.ok.injEq] at hs
          subst hs
          exact Int.le_refl _
      | unregistered s =>
        simp only [goStep] at hs
        split at hs
        · split at hs
          · cases hs
          · simp only [Out.ok.injEq] at hs
            subst hs
            exact Int.le_refl _
        · simp only [Out.ok.injEq] at hs
          subst hs
          exact Int.le_refl _
  | malloc w r a | free s | start tok | dump =>
    simp only [step] at hs
    split at hs <;> first | cases hs; done | (simp only [Out.ok.injEq] at hs; subst hs; exact Int.le_refl _)
  | save i copied =>
    simp only [step] at hs
    split at hs
    · split at hs
      · simp only [Out.ok.injEq] at hs
        subst hs
        exact Int.le_refl _
      · cases hs
    · cases hs
  | stop tok | drop tok =>
    simp only [step] at hs
    split at hs
    · split at hs
      · cases hs
      · simp only [Out.ok.injEq] at hs
        subst hs
        exact Int.le_refl _
    · simp only [Out.ok.injEq] at hs
      subst hs
      exact Int.le_refl _
    · cases hs

end Verif.Sampling
