import Verif.Sampling.Spec
/-
Invariants of the sampled path.
-/
namespace Verif.Sampling

theorem sum_set (f : Pc → Nat) : ∀ (l : List Pc) (i : Nat) (pc pc' : Pc), l[i]? = some pc →
    ((l.set i pc').map f).sum + f pc = (l.map f).sum + f pc'
  | [], i, pc, pc', h => by simp at h
  | a :: l, 0, pc, pc', h => by
    simp only [List.getElem?_cons_zero, Option.some.injEq] at h
    subst h
    simp only [List.set_cons_zero, List.map_cons, List.sum_cons]
    omega
  | a :: l, i + 1, pc, pc', h => by
    simp only [List.getElem?_cons_succ] at h
    have := sum_set f l i pc pc' h
    simp only [List.set_cons_succ, List.map_cons, List.sum_cons]
    omega

theorem sum_push (f : Pc → Nat) (l : List Pc) (pc : Pc) :
    ((l ++ [pc]).map f).sum = (l.map f).sum + f pc := by
  rw [List.map_append, List.sum_append]
  simp

theorem sum_le (f : Pc → Nat) (l : List Pc) (i : Nat) (pc : Pc) (h : l[i]? = some pc) :
    f pc ≤ (l.map f).sum := by
  have : pc ∈ l := List.mem_of_getElem? h
  obtain ⟨a, b, hab⟩ := List.append_of_mem this
  rw [hab, List.map_append, List.sum_append]
  simp only [List.map_cons, List.sum_cons]
  omega

theorem total_cons (f : Sample → Nat) (s : Sample) (l : List Sample) :
    total f (s :: l) = f s + total f l := by
  unfold total
  simp

theorem total_erase (f : Sample → Nat) {s : Sample} : ∀ {l : List Sample}, s ∈ l →
    total f l = f s + total f (l.erase s)
  | [], h => by cases h
  | a :: l, h => by
    by_cases ha : a = s
    · subst ha
      rw [List.erase_cons_head, total_cons]
    · have hl : s ∈ l := by
        rcases List.mem_cons.1 h with h | h
        · exact absurd h.symm ha
        · exact h
      rw [List.erase_cons_tail (by simpa using ha), total_cons, total_cons, total_erase f hl]
      omega

/-- The sample a call is about and what it has done so far. -/
def pFrag (A : Arith) : Pc → Nat
  | .took _ => 0
  | .done => 0
  | .fragged s | .reported s | .registered s | .sampled s | .peakRead s _ | .wantLock s | .holding s
  | .locked s | .readSize s _ | .saving s | .unsampled s | .unregistered s => waste A s

def pSize (A : Arith) : Pc → Nat
  | .sampled s | .peakRead s _ | .wantLock s | .holding s | .locked s | .readSize s _
  | .saving s => A.bytes s
  | _ => 0

def pLive (x : Sample) : Pc → Nat
  | .registered s | .sampled s | .peakRead s _ | .wantLock s | .holding s | .locked s
  | .readSize s _ | .saving s | .unsampled s => if s = x then 1 else 0
  | _ => 0

def pCount : Pc → Nat
  | .reported _ | .registered _ => 1
  | _ => 0

def pHandle (h : Nat) : Pc → Nat
  | .took s | .fragged s => if s.handle = h then 1 else 0
  | _ => 0

def pHeld (x : Sample) : Pc → Nat
  | .reported s | .registered s | .sampled s | .peakRead s _ | .wantLock s | .holding s | .locked s
  | .readSize s _ | .saving s | .unsampled s | .unregistered s => if s = x then 1 else 0
  | _ => 0

def hCount (h : Nat) (l : List Sample) : Nat := total (fun s => if s.handle = h then 1 else 0) l

structure Acc (A : Arith) (σ : State) : Prop where
  frag : σ.frag = ((total (waste A) σ.owned + (σ.calls.map (pFrag A)).sum : Nat) : Int)
  size : σ.size = ((total A.bytes σ.owned + (σ.calls.map (pSize A)).sum : Nat) : Int)
  live : ∀ x, σ.live.count x = σ.owned.count x + (σ.calls.map (pLive x)).sum
  count : σ.total + (σ.calls.map pCount).sum = (samplesOf σ.trace).length
  once : ∀ h, (σ.calls.map (pHandle h)).sum + hCount h (samplesOf σ.trace) ≤ 1
  fresh : ∀ h, h = 0 ∨ σ.gen < h →
    (σ.calls.map (pHandle h)).sum + hCount h (samplesOf σ.trace) = 0
  held : ∀ x, σ.owned.count x + (σ.calls.map (pHeld x)).sum ≤ (samplesOf σ.trace).count x

theorem acc_init (A : Arith) : Acc A init := by
  constructor <;> simp [init, total, hCount, samplesOf]

/-- A step of one call that moves it from `pc` to `pc'`. -/
theorem acc_go {A : Arith} {σ τ : State} {i : Nat} {pc pc' : Pc} (inv : Acc A σ)
    (hpc : σ.calls[i]? = some pc) (hc : τ.calls = σ.calls.set i pc') (hg : τ.gen = σ.gen)
    (h1 : τ.frag + pFrag A pc + total (waste A) σ.owned =
      σ.frag + pFrag A pc' + total (waste A) τ.owned)
    (h2 : τ.size + pSize A pc + total A.bytes σ.owned =
      σ.size + pSize A pc' + total A.bytes τ.owned)
    (h3 : ∀ x, τ.live.count x + pLive x pc + σ.owned.count x =
      σ.live.count x + pLive x pc' + τ.owned.count x)
    (h4 : τ.total + pCount pc' + (samplesOf σ.trace).length =
      σ.total + pCount pc + (samplesOf τ.trace).length)
    (h5 : ∀ h, pHandle h pc' + hCount h (samplesOf τ.trace) =
      pHandle h pc + hCount h (samplesOf σ.trace))
    (h6 : ∀ x, τ.owned.count x + pHeld x pc' + (samplesOf σ.trace).count x ≤
      σ.owned.count x + pHeld x pc + (samplesOf τ.trace).count x) : Acc A τ := by
  have s1 := sum_set (pFrag A) σ.calls i pc pc' hpc
  have s2 := sum_set (pSize A) σ.calls i pc pc' hpc
  have s4 := sum_set pCount σ.calls i pc pc' hpc
  rw [← hc] at s1 s2 s4
  refine ⟨?_, ?_, ?_, ?_, ?_, ?_, ?_⟩
  · have := inv.frag
    omega
  · have := inv.size
    omega
  · intro x
    have s3 := sum_set (pLive x) σ.calls i pc pc' hpc
    rw [← hc] at s3
    have := inv.live x
    have := h3 x
    omega
  · have := inv.count
    omega
  · intro h
    have s5 := sum_set (pHandle h) σ.calls i pc pc' hpc
    rw [← hc] at s5
    have := inv.once h
    have := h5 h
    omega
  · intro h hh
    rw [hg] at hh
    have s5 := sum_set (pHandle h) σ.calls i pc pc' hpc
    rw [← hc] at s5
    have := inv.fresh h hh
    have := h5 h
    omega
  · intro x
    have s6 := sum_set (pHeld x) σ.calls i pc pc' hpc
    rw [← hc] at s6
    have := inv.held x
    have := h6 x
    omega

/-- A command that touches none of this. -/
theorem acc_other {A : Arith} {σ τ : State} (inv : Acc A σ) (h1 : τ.frag = σ.frag)
    (h2 : τ.size = σ.size) (h3 : τ.live = σ.live) (h4 : τ.total = σ.total) (h5 : τ.gen = σ.gen)
    (h6 : τ.owned = σ.owned) (h7 : τ.calls = σ.calls)
    (h8 : samplesOf τ.trace = samplesOf σ.trace) : Acc A τ :=
  ⟨by rw [h1, h6, h7]; exact inv.frag, by rw [h2, h6, h7]; exact inv.size,
   by rw [h3, h6, h7]; exact inv.live, by rw [h4, h7, h8]; exact inv.count,
   by rw [h7, h8]; exact inv.once, by rw [h5, h7, h8]; exact inv.fresh, by rw [h6, h7, h8]; exact inv.held⟩

theorem frag_ok {A : Arith} {σ : State} {i : Nat} {s : Sample} (inv : Acc A σ)
    (hpc : σ.calls[i]? = some (.unregistered s)) (h : s.requested < s.allocated) :
    ¬ σ.frag < A.frag s := by
  have h1 := sum_le (pFrag A) σ.calls i _ hpc
  have h2 : pFrag A (.unregistered s) = A.frag s := by simp [pFrag, waste, h]
  have := inv.frag
  omega

theorem acc_goStep {A : Arith} {σ τ : State} {i : Nat} {pc : Pc} (inv : Acc A σ)
    (hpc : σ.calls[i]? = some pc) (hs : goStep A σ i pc = .ok τ) : Acc A τ := by
  cases pc with
  | took s =>
    simp only [goStep, Out.ok.injEq] at hs
    subst hs
    refine acc_go inv hpc rfl rfl ?_ ?_ ?_ ?_ ?_ ?_ <;> simp only [pFrag, pSize, pLive, pCount, pHandle, pHeld, waste]
    · split <;> simp <;> omega
    · simp
    · simp
    · intro x; omega
  | fragged s =>
    simp only [goStep, Out.ok.injEq] at hs
    subst hs
    refine acc_go inv hpc rfl rfl ?_ ?_ ?_ ?_ ?_ ?_ <;>
      simp only [pFrag, pSize, pLive, pCount, pHandle, pHeld, samplesOf, List.length_cons]
    · intro _; trivial
    · omega
    · intro h
      simp only [hCount, total_cons]
      omega
    · intro x; by_cases hx : s = x <;> simp [hx] <;> omega
  | reported s =>
    simp only [goStep, Out.ok.injEq] at hs
    subst hs
    refine acc_go inv hpc rfl rfl ?_ ?_ ?_ ?_ ?_ ?_ <;>
      simp only [pFrag, pSize, pLive, pCount, pHandle, pHeld]
    · intro x
      rw [List.count_cons]
      by_cases hx : s = x <;> simp [hx] <;> omega
    · intro _; trivial
    · intro x; omega
  | registered s =>
    simp only [goStep, Out.ok.injEq] at hs
    subst hs
    refine acc_go inv hpc rfl rfl ?_ ?_ ?_ ?_ ?_ ?_ <;>
      simp only [pFrag, pSize, pLive, pCount, pHandle, pHeld] <;> simp <;> omega
  | sampled s =>
    simp only [goStep] at hs
    split at hs <;> simp only [Out.ok.injEq] at hs <;> subst hs
    · refine acc_go inv hpc rfl rfl ?_ ?_ ?_ ?_ ?_ ?_ <;>
        simp only [pFrag, pSize, pLive, pCount, pHandle, pHeld, State.ret, total_cons, List.count_cons]
      · omega
      · omega
      · intro x; by_cases hx : s = x <;> simp [hx] <;> omega
      · intro _; trivial
      · intro x; by_cases hx : s = x <;> simp [hx]
    · refine acc_go inv hpc rfl rfl ?_ ?_ ?_ ?_ ?_ ?_ <;>
        simp only [pFrag, pSize, pLive, pCount, pHandle, pHeld] <;> simp
  | peakRead s p =>
    simp only [goStep] at hs
    split at hs <;> simp only [Out.ok.injEq] at hs <;> subst hs
    · refine acc_go inv hpc rfl rfl ?_ ?_ ?_ ?_ ?_ ?_ <;>
        simp only [pFrag, pSize, pLive, pCount, pHandle, pHeld, State.ret, total_cons, List.count_cons]
      · omega
      · omega
      · intro x; by_cases hx : s = x <;> simp [hx] <;> omega
      · intro _; trivial
      · intro x; by_cases hx : s = x <;> simp [hx]
    · refine acc_go inv hpc rfl rfl ?_ ?_ ?_ ?_ ?_ ?_ <;>
        simp only [pFrag, pSize, pLive, pCount, pHandle, pHeld] <;> simp
  | wantLock s =>
    simp only [goStep] at hs
    split at hs
    · cases hs
    · simp only [Out.ok.injEq] at hs
      subst hs
      refine acc_go inv hpc rfl rfl ?_ ?_ ?_ ?_ ?_ ?_ <;>
        simp only [pFrag, pSize, pLive, pCount, pHandle, pHeld] <;> simp
  | holding s =>
    simp only [goStep] at hs
    split at hs <;> simp only [Out.ok.injEq] at hs <;> subst hs
    · refine acc_go inv hpc rfl rfl ?_ ?_ ?_ ?_ ?_ ?_ <;>
        simp only [pFrag, pSize, pLive, pCount, pHandle, pHeld, State.ret, total_cons, List.count_cons]
      · omega
      · omega
      · intro x; by_cases hx : s = x <;> simp [hx] <;> omega
      · intro _; trivial
      · intro x; by_cases hx : s = x <;> simp [hx]
    · refine acc_go inv hpc rfl rfl ?_ ?_ ?_ ?_ ?_ ?_ <;>
        simp only [pFrag, pSize, pLive, pCount, pHandle, pHeld] <;> simp
  | locked s =>
    simp only [goStep, Out.ok.injEq] at hs
    subst hs
    refine acc_go inv hpc rfl rfl ?_ ?_ ?_ ?_ ?_ ?_ <;>
      simp only [pFrag, pSize, pLive, pCount, pHandle, pHeld] <;> simp
  | readSize s v =>
    simp only [goStep, Out.ok.injEq] at hs
    subst hs
    refine acc_go inv hpc rfl rfl ?_ ?_ ?_ ?_ ?_ ?_ <;>
      simp only [pFrag, pSize, pLive, pCount, pHandle, pHeld] <;> simp
  | saving s => cases hs
  | unsampled s =>
    simp only [goStep, Out.ok.injEq] at hs
    subst hs
    have hpos : 0 < σ.live.count s := by
      have h1 := sum_le (pLive s) σ.calls i _ hpc
      have h2 := inv.live s
      simp only [pLive, if_true] at h1
      omega
    refine acc_go inv hpc rfl rfl ?_ ?_ ?_ ?_ ?_ ?_ <;>
      simp only [pFrag, pSize, pLive, pCount, pHandle, pHeld]
    · intro x
      rw [List.count_erase]
      by_cases hx : s = x
      · subst hx
        simp
        omega
      · have : (s == x) = false := by simpa using hx
        simp [hx, this]
    · intro _; trivial
    · intro x; omega
  | unregistered s =>
    simp only [goStep] at hs
    by_cases hlt : s.requested < s.allocated
    · rw [if_pos hlt, if_neg (frag_ok inv hpc hlt)] at hs
      simp only [Out.ok.injEq] at hs
      subst hs
      refine acc_go inv hpc rfl rfl ?_ ?_ ?_ ?_ ?_ ?_ <;>
        simp only [pFrag, pSize, pLive, pCount, pHandle, pHeld, waste, if_pos hlt]
      · omega
      · intro _; trivial
      · intro _; trivial
      · intro x; omega
    · rw [if_neg hlt] at hs
      simp only [Out.ok.injEq] at hs
      subst hs
      refine acc_go inv hpc rfl rfl ?_ ?_ ?_ ?_ ?_ ?_ <;>
        simp only [pFrag, pSize, pLive, pCount, pHandle, pHeld, waste, if_neg hlt] <;> simp
  | done => cases hs

theorem acc_step {A : Arith} {σ τ : State} {c : Cmd} (inv : Acc A σ) (hs : step A σ c = .ok τ) :
    Acc A τ := by
  cases c with
  | malloc w r a =>
    simp only [step] at hs
    split at hs
    · simp only [Out.ok.injEq] at hs
      subst hs
      refine ⟨?_, ?_, ?_, ?_, ?_, ?_, ?_⟩
      · rw [sum_push]; exact inv.frag
      · rw [sum_push]; exact inv.size
      · intro x; rw [sum_push]; exact inv.live x
      · rw [sum_push]; exact inv.count
      · intro h
        show ((σ.calls ++ _).map _).sum + hCount h (samplesOf σ.trace) ≤ 1
        rw [sum_push]
        simp only [pHandle]
        have h1 := inv.once h
        by_cases hh : σ.gen + 1 = h
        · have := inv.fresh h (.inr (by omega))
          rw [if_pos hh]; omega
        · rw [if_neg hh]; omega
      · intro h hh
        show ((σ.calls ++ _).map _).sum + hCount h (samplesOf σ.trace) = 0
        rw [sum_push]
        simp only [pHandle] at hh ⊢
        have := inv.fresh h (by omega)
        rw [if_neg (by omega)]
        omega
      · intro x; rw [sum_push]; exact inv.held x
    · cases hs
  | free s =>
    simp only [step] at hs
    split at hs
    · rename_i hmem
      simp only [Out.ok.injEq] at hs
      subst hs
      have e1 := total_erase (waste A) hmem
      have e2 := total_erase A.bytes hmem
      refine ⟨?_, ?_, ?_, ?_, ?_, ?_, ?_⟩
      · show σ.frag = ((total (waste A) (σ.owned.erase s) + ((σ.calls ++ _).map _).sum : Nat) : Int)
        rw [sum_push, inv.frag]
        simp only [pFrag]
        omega
      · show σ.size - A.bytes s =
          ((total A.bytes (σ.owned.erase s) + ((σ.calls ++ _).map _).sum : Nat) : Int)
        rw [sum_push, inv.size]
        simp only [pSize]
        omega
      · intro x
        show σ.live.count x = (σ.owned.erase s).count x + ((σ.calls ++ _).map _).sum
        rw [sum_push, inv.live x, List.count_erase]
        simp only [pLive]
        by_cases hx : s = x
        · subst hx
          have := List.count_pos_iff.2 hmem
          simp
          omega
        · have : (s == x) = false := by simpa using hx
          simp [hx, this]
      · rw [sum_push]; exact inv.count
      · intro h; rw [sum_push]; exact inv.once h
      · intro h hh; rw [sum_push]; exact inv.fresh h hh
      · intro x
        show (σ.owned.erase s).count x + ((σ.calls ++ _).map _).sum ≤ _
        rw [sum_push, List.count_erase]
        have h1 := inv.held x
        have h2 := List.count_pos_iff.2 hmem
        simp only [pHeld]
        by_cases hx : s = x
        · subst hx
          simp
          omega
        · have : (s == x) = false := by simpa using hx
          simp [hx, this]
          exact h1
    · cases hs
  | go i =>
    simp only [step] at hs
    cases hpc : σ.calls[i]? with
    | none => rw [hpc] at hs; cases hs
    | some pc => rw [hpc] at hs; exact acc_goStep inv hpc hs
  | save i copied =>
    simp only [step] at hs
    split at hs
    · rename_i s must may hpc hw
      split at hs
      · simp only [Out.ok.injEq] at hs
        subst hs
        refine acc_go inv hpc rfl rfl ?_ ?_ ?_ ?_ ?_ ?_ <;>
          simp only [pFrag, pSize, pLive, pCount, pHandle, pHeld, total_cons, List.count_cons]
        · omega
        · omega
        · intro x; by_cases hx : s = x <;> simp [hx] <;> omega
        · intro _; trivial
        · intro x; by_cases hx : s = x <;> simp [hx]
      · cases hs
    · cases hs
  | start tok =>
    simp only [step] at hs
    split at hs
    · simp only [Out.ok.injEq] at hs
      subst hs
      exact acc_other inv rfl rfl rfl rfl rfl rfl rfl rfl
    · cases hs
  | stop tok =>
    simp only [step] at hs
    split at hs
    · split at hs
      · cases hs
      · simp only [Out.ok.injEq] at hs
        subst hs
        exact acc_other inv rfl rfl rfl rfl rfl rfl rfl rfl
    · simp only [Out.ok.injEq] at hs
      subst hs
      exact acc_other inv rfl rfl rfl rfl rfl rfl rfl rfl
    · cases hs
  | drop tok =>
    simp only [step] at hs
    split at hs
    · split at hs
      · cases hs
      · simp only [Out.ok.injEq] at hs
        subst hs
        exact acc_other inv rfl rfl rfl rfl rfl rfl rfl rfl
    · simp only [Out.ok.injEq] at hs
      subst hs
      exact acc_other inv rfl rfl rfl rfl rfl rfl rfl rfl
    · cases hs
  | dump =>
    simp only [step] at hs
    split at hs
    · cases hs
    · simp only [Out.ok.injEq] at hs
      subst hs
      exact acc_other inv rfl rfl rfl rfl rfl rfl rfl rfl

theorem reach_acc {A : Arith} {σ : State} (h : Reach A σ) : Acc A σ := by
  induction h with
  | init => exact acc_init A
  | step _ hs ih => exact acc_step ih hs

end Verif.Sampling
