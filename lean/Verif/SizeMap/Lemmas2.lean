import Verif.SizeMap.Lemmas
import Verif.SizeMap.Spec
/-! Helper lemmas: the whole of `SizeMap::Init` and `GetSizeClass`. -/
namespace Verif.SizeMap

theorem flatten_replicate_get (xs : List Nat) (N : Nat) (hx : xs.length = N) :
    ∀ (n b c : Nat), b < n → c < N →
      ((List.replicate n xs).flatten)[b * N + c]? = xs[c]? := by
  intro n
  induction n with
  | zero => intro b c hb; omega
  | succ n ih =>
    intro b c hb hc
    rw [List.replicate_succ, List.flatten_cons]
    cases b with
    | zero => rw [List.getElem?_append_left (by omega)]; simp
    | succ b =>
      rw [List.getElem?_append_right (by rw [Nat.succ_mul]; omega)]
      rw [← ih b c (by omega) hc]
      congr 1
      rw [Nat.succ_mul]; omega

theorem setRegister_get {cfg : Cfg} (xs : List Nat) (hl : xs.length ≤ cfg.numBase) {b c : Nat}
    (hb : b < cfg.numClasses / cfg.numBase) (hc : c < xs.length) :
    (setRegister cfg xs)[b * cfg.numBase + c]? = xs[c]? := by
  unfold setRegister
  rw [flatten_replicate_get _ cfg.numBase (by simp; omega) _ b c hb (by omega)]
  rw [List.getElem?_append_left hc]

theorem setRegister_get0 {cfg : Cfg} (xs : List Nat) (hl : xs.length ≤ cfg.numBase) {c : Nat}
    (hb : 0 < cfg.numClasses / cfg.numBase) (hc : c < xs.length) :
    (setRegister cfg xs)[0 + c]? = xs[c]? := by
  have := setRegister_get (cfg := cfg) xs hl hb hc
  simpa using this

/-- Table index `i` belongs to class `c`. -/
def Cov (ts : List Nat) (i c : Nat) : Prop :=
  1 ≤ c ∧ ∃ lo hi, ts[c - 1]? = some lo ∧ ts[c]? = some hi ∧ (c = 1 ∨ idxN lo < i) ∧ i ≤ idxN hi

/-- Register `r` maps every index to the right class of the group starting at `base`. -/
def RegOk (K : Nat) (ts a : List Nat) (r base : Nat) : Prop :=
  ∀ i c, Cov ts i c → a[K * r + i]? = some (base + c)

def RegOkPos (K : Nat) (ts a : List Nat) (r base base0 : Nat) : Prop :=
  ∀ i c, Cov ts i c → a[K * r + i]? = some ((if i = 0 then base0 else base) + c)

theorem Cov.le_max {cfg : Cfg} {ts : List Nat} (g : GoodSizes cfg ts) {i c : Nat}
    (h : Cov ts i c) : i ≤ idxN cfg.maxSize := by
  obtain ⟨_, lo, hi, _, h2, _, h4⟩ := h
  have := idxN_mono (g.le_max h2)
  omega

/-- Running the loop over a whole group from size 0. -/
theorem fillGroup {cfg : Cfg} {ts sizes : List Nat} (g : GoodSizes cfg ts) (base : Nat)
    (hs : ∀ c, c < ts.length → sizes[base + c]? = ts[c]?) (offs : List Nat)
    (stop : Nat) (hstop : base + ts.length ≤ stop)
    (hsep : ∀ o ∈ offs, ∀ o' ∈ offs, ∀ i i', i ≤ idxN cfg.maxSize → i' ≤ idxN cfg.maxSize →
      i + o = i' + o' → i = i')
    (a : List Nat) (hb : ∀ o ∈ offs, idxN cfg.maxSize + o < a.length) :
    ∃ a', fillLoop cfg sizes offs false stop (base + 1) 0 a = some a' ∧ a'.length = a.length ∧
      (∀ o ∈ offs, ∀ i c, Cov ts i c → a'[i + o]? = some (base + c)) ∧
      (∀ j, (∀ o ∈ offs, ∀ i, i ≤ idxN cfg.maxSize → j ≠ i + o) → a'[j]? = a[j]?) := by
  have htwo := g.two
  obtain ⟨mx, hmx⟩ : ∃ y, ts[1]? = some y := ⟨ts[1], by simp⟩
  obtain ⟨a', h1, h2, h3, h4, h5⟩ := fillLoop_spec ts sizes g base hs offs false stop hstop hsep
    ts.length 1 0 a mx (by omega) (by omega) hmx (by omega) (by omega) hb
  refine ⟨a', h1, h2, ?_, ?_⟩
  · intro o ho i c hcov
    obtain ⟨hc1, lo, hi, hlo, hhi, hor, hle⟩ := hcov
    by_cases hce : c = 1
    · subst hce
      have : hi = mx := by simpa [hmx] using hhi.symm
      subst this
      exact h3 o ho i (by simp [idxN]) hle
    · exact h4 o ho c lo hi (by omega) hlo hhi i (by omega) hle
  · intro j hj
    exact h5 j (fun o ho i _ h => hj o ho i h)

/-- The cold loop: it starts at the all-zero class and so from size 8. -/
theorem fillCold {cfg : Cfg} {ts sizes : List Nat} (g : GoodSizes cfg ts) (base : Nat)
    (hs : ∀ c, c < ts.length → sizes[base + c]? = ts[c]?) (o : Nat)
    (stop : Nat) (hstop : base + ts.length ≤ stop) (leftover : Nat)
    (a : List Nat) (hb : idxN cfg.maxSize + o < a.length) :
    ∃ a', fillLoop cfg sizes [o] true stop base leftover a = some a' ∧ a'.length = a.length ∧
      (∀ i c, 1 ≤ i → Cov ts i c → a'[i + o]? = some (base + c)) ∧
      (∀ j, (∀ i, 1 ≤ i → i ≤ idxN cfg.maxSize → j ≠ i + o) → a'[j]? = a[j]?) := by
  have htwo := g.two
  obtain ⟨mx, hmx⟩ : ∃ y, ts[1]? = some y := ⟨ts[1], by simp⟩
  have h0 := hs 0 (by omega)
  rw [g.zero] at h0
  have hmx0 := g.incr 0 1 0 mx (by omega) g.zero hmx
  have hb8 := (g.bdry 1 mx hmx).1
  obtain ⟨a', h1, h2, h3, h4, h5⟩ := fillLoop_spec ts sizes g base hs [o] true stop hstop
    (by intro o1 ho1 o2 ho2 i i' _ _ h; simp at ho1 ho2; omega)
    ts.length 1 8 a mx (by omega) (by omega) hmx (by omega) (by omega)
    (by intro o1 ho1; simp at ho1; omega)
  refine ⟨a', ?_, h2, ?_, ?_⟩
  · rw [fillLoop]
    have : base < stop := by omega
    simp only [this, if_true]
    simp only [Nat.add_zero] at h0
    simp only [h0, Option.bind_eq_bind, Option.bind_some, decide_true, Bool.and_true, if_true]
    simpa [kAlignment] using h1
  · intro i c hi1 hcov
    obtain ⟨hc1, lo, hi, hlo, hhi, hor, hle⟩ := hcov
    by_cases hce : c = 1
    · subst hce
      have : hi = mx := by simpa [hmx] using hhi.symm
      subst this
      exact h3 o (by simp) i (by simp [idxN]; omega) hle
    · exact h4 o (by simp) c lo hi (by omega) hlo hhi i (by omega) hle
  · intro j hj
    refine h5 j (fun o' ho' i h1 h2 => ?_)
    simp at ho'; subst ho'
    exact hj i (by have : idxN 8 = 1 := rfl
                   omega) h2

theorem classArraySize_eq {cfg : Cfg} (h : 1024 < cfg.maxSize) :
    cfg.classArraySize = idxN cfg.maxSize + 1 := by
  have e : ∀ x : Nat, (x + 127 + 15360) = x + 15487 := by intro x; omega
  simp only [Cfg.classArraySize, idxN, Nat.shiftRight_eq_div_pow, Nat.reducePow, Nat.reduceShiftLeft,
    e]
  rw [if_neg (by omega)]

/-- What `Init` leaves in `class_array_`. -/
structure ArrayOk (cfg : Cfg) (ts a : List Nat) : Prop where
  hot : ∀ (isNew : Bool) (sec : Nat), sec < cfg.secParts →
    RegOk cfg.classArraySize ts a (sec + if isNew then 0 else cfg.secParts) (hotStart cfg isNew sec)
  cold : cfg.hasExpanded = true → ∀ sec, sec < cfg.secParts →
    if decide (sec = 1) && cfg.modeFull then
      RegOk cfg.classArraySize ts a (sec + cfg.hotRegisters) (hotStart cfg true 1)
    else RegOkPos cfg.classArraySize ts a (sec + cfg.hotRegisters) cfg.expandedStart
      (hotStart cfg true 0)

theorem initArray_ok {cfg : Cfg} {ts sizes : List Nat} (g : GoodSizes cfg ts)
    (hbig : 1024 < cfg.maxSize) (hnp : cfg.secParts = 1 ∨ cfg.secParts = 2)
    (hnuma : 1 ≤ cfg.numaParts)
    (hlen : ts.length ≤ cfg.numBase)
    (hs : ∀ b c, b < cfg.numClasses / cfg.numBase → c < ts.length →
      sizes[b * cfg.numBase + c]? = ts[c]?) (leftover : Nat) :
    ∃ a, initArray cfg sizes leftover = some a ∧ ArrayOk cfg ts a := by
  have hK := classArraySize_eq hbig
  have htwo := g.two
  have hnb : 0 < cfg.numBase := by omega
  -- number of groups
  have hng : cfg.numClasses / cfg.numBase = cfg.normalParts + (if cfg.hasExpanded then 1 else 0) := by
    unfold Cfg.numClasses Cfg.expandedStart
    split
    · rw [Nat.mul_add_div hnb, Nat.div_self hnb]
    · rw [Nat.add_zero, Nat.mul_div_cancel_left _ hnb, Nat.add_zero]
  have hnorm : cfg.secParts ≤ cfg.normalParts := by
    unfold Cfg.normalParts
    have := Nat.mul_le_mul_right cfg.secParts hnuma
    omega
  have hexp : cfg.numBase * cfg.secParts ≤ cfg.expandedStart := Nat.mul_le_mul_left _ hnorm
  have hs0 : ∀ c, c < ts.length → sizes[0 + c]? = ts[c]? := by
    intro c hc
    have := hs 0 c (by omega) hc
    simpa using this
  generalize hKd : cfg.classArraySize = K at *
  have hnc : cfg.expandedStart ≤ cfg.numClasses := by unfold Cfg.numClasses; omega
  have hnb1 : cfg.numBase * 1 ≤ cfg.numBase * cfg.secParts := Nat.mul_le_mul_left _ (by omega)
  have htot : K * (2 * cfg.secParts) + (if cfg.hasExpanded then K * cfg.secParts else 0) =
      cfg.classArrayTotal := by
    unfold Cfg.classArrayTotal Cfg.hotRegisters Cfg.coldRegisters
    rw [hKd, Nat.mul_add]
    split <;> simp
  have hKt : K * 1 ≤ K * (2 * cfg.secParts) := Nat.mul_le_mul_left _ (by omega)
  -- hot loop
  obtain ⟨a1, p1, l1, w1, -⟩ := fillGroup g 0 hs0 [0] cfg.numClasses (by omega)
    (by intro o1 ho1 o2 ho2 i i' _ _ h; simp at ho1 ho2; omega)
    (List.replicate cfg.classArrayTotal 0) (by intro o ho; simp at ho; simp; omega)
  simp only [List.length_replicate] at l1
  have w1' : ∀ i c, Cov ts i c → a1[i]? = some c := by
    intro i c h; simpa using w1 0 (by simp) i c h
  -- copies
  obtain ⟨a2, p2, l2, w2, u2⟩ := copyHot_spec K (cfg.hotRegisters - 1) 1 a1 (by omega) (by
    have : 1 + (cfg.hotRegisters - 1) = 2 * cfg.secParts := by unfold Cfg.hotRegisters; omega
    rw [this]; omega)
  have hR2 : ∀ r, r < 2 * cfg.secParts → ∀ i c, Cov ts i c → a2[K * r + i]? = some c := by
    intro r hr i c h
    have hi := h.le_max g
    by_cases hr0 : r = 0
    · subst hr0; rw [u2 _ (by left; omega)]; simpa using w1' i c h
    · rw [w2 r (by omega) (by unfold Cfg.hotRegisters; omega) i (by omega), w1' i c h]
  -- partitions
  have hR3 : ∃ a3, (if decide (cfg.secParts > 1) && cfg.partActive then
        fillLoop cfg sizes
          (if cfg.modeFull then [K * (cfg.secParts + 1), K] else [K * (cfg.secParts + 1), K, 0])
          false cfg.expandedStart (cfg.numBase + 1) 0 a2
      else some a2) = some a3 ∧ a3.length = a2.length ∧
      ∀ (isNew : Bool) (sec : Nat), sec < cfg.secParts →
        RegOk K ts a3 (sec + if isNew then 0 else cfg.secParts) (hotStart cfg isNew sec) := by
    by_cases hact : (decide (cfg.secParts > 1) && cfg.partActive) = true
    · rw [if_pos hact]
      have hsp : cfg.secParts = 2 := by simp at hact; omega
      have hpa : cfg.partActive = true := by simp at hact; exact hact.2
      have hs1 : ∀ c, c < ts.length → sizes[cfg.numBase + c]? = ts[c]? := by
        intro c hc
        have := hs 1 c (by omega) hc
        simpa using this
      rw [hsp] at hexp htot hnorm hR2 ⊢
      have hlen3 : K * 4 ≤ a2.length := by omega
      by_cases hfull : cfg.modeFull = true
      · rw [if_pos hfull]
        obtain ⟨a3, q1, q2, q3, q4⟩ := fillGroup g cfg.numBase hs1 [K * (2 + 1), K]
          cfg.expandedStart (by omega)
          (by intro o1 ho1 o2 ho2 i i' _ _ h; simp at ho1 ho2; omega) a2
          (by intro o ho; simp at ho; omega)
        refine ⟨a3, q1, q2, ?_⟩
        intro isNew sec hsec i c hcov
        have hi := hcov.le_max g
        have hsec' : sec = 0 ∨ sec = 1 := by omega
        rcases hsec' with rfl | rfl
        · have hb : hotStart cfg isNew 0 = 0 := by simp [hotStart, hfull]
          rw [hb, q4 _ (by intro o ho i' hi'; simp at ho; cases isNew <;> simp <;> omega)]
          rw [hR2 _ (by cases isNew <;> simp) i c hcov]; simp
        · have hb : hotStart cfg isNew 1 = cfg.numBase := by simp [hotStart, hsp, hpa]
          rw [hb]
          cases isNew
          · have := q3 (K * (2 + 1)) (by simp) i c hcov
            rw [← this]; congr 1; simp; omega
          · have := q3 K (by simp) i c hcov
            rw [← this]; congr 1; simp; omega
      · rw [if_neg hfull]
        obtain ⟨a3, q1, q2, q3, q4⟩ := fillGroup g cfg.numBase hs1 [K * (2 + 1), K, 0]
          cfg.expandedStart (by omega)
          (by intro o1 ho1 o2 ho2 i i' _ _ h; simp at ho1 ho2; omega) a2
          (by intro o ho; simp at ho; omega)
        refine ⟨a3, q1, q2, ?_⟩
        intro isNew sec hsec i c hcov
        have hi := hcov.le_max g
        have hsec' : sec = 0 ∨ sec = 1 := by omega
        rcases hsec' with rfl | rfl
        · cases isNew
          · have hb : hotStart cfg false 0 = 0 := by simp [hotStart]
            rw [hb, q4 _ (by intro o ho i' hi'; simp at ho; simp; omega)]
            rw [hR2 _ (by simp) i c hcov]; simp
          · have hb : hotStart cfg true 0 = cfg.numBase := by simp [hotStart, hsp, hpa, hfull]
            rw [hb]
            have := q3 0 (by simp) i c hcov
            rw [← this]; congr 1; simp
        · have hb : hotStart cfg isNew 1 = cfg.numBase := by simp [hotStart, hsp, hpa]
          rw [hb]
          cases isNew
          · have := q3 (K * (2 + 1)) (by simp) i c hcov
            rw [← this]; congr 1; simp; omega
          · have := q3 K (by simp) i c hcov
            rw [← this]; congr 1; simp; omega
    · rw [if_neg hact]
      refine ⟨a2, rfl, rfl, ?_⟩
      intro isNew sec hsec i c hcov
      have hb : hotStart cfg isNew sec = 0 := by
        unfold hotStart
        rw [Bool.not_eq_true] at hact
        rw [hact]; simp
      rw [hb, hR2 _ (by cases isNew <;> simp <;> omega) i c hcov]; simp
  obtain ⟨a3, p3, l3, hot3⟩ := hR3
  have h00 : RegOk K ts a3 0 (hotStart cfg true 0) := by
    have := hot3 true 0 (by omega); simpa using this
  unfold initArray
  simp only [hKd, p1, p2, Option.bind_eq_bind, Option.bind_some]
  simp only [p3, Option.bind_some]
  by_cases hex : cfg.hasExpanded = true
  · rw [if_pos hex]
    rw [if_pos hex] at htot hng
    have hncE : cfg.numClasses = cfg.expandedStart + cfg.numBase := by
      unfold Cfg.numClasses; rw [if_pos hex]
    have hhr : K * cfg.hotRegisters = K * (2 * cfg.secParts) := rfl
    obtain ⟨a4, p4, l4, w4, u4⟩ := copyReg_spec K 0 (K * cfg.hotRegisters) a3 (by omega)
      (by have : K * 1 ≤ K * cfg.secParts := Nat.mul_le_mul_left _ (by omega)
          omega)
    have hsE : ∀ c, c < ts.length → sizes[cfg.expandedStart + c]? = ts[c]? := by
      intro c hc
      have := hs cfg.normalParts c (by omega) hc
      rw [← this]; congr 2; unfold Cfg.expandedStart; rw [Nat.mul_comm]
    have hKc : K * 1 ≤ K * cfg.secParts := Nat.mul_le_mul_left _ (by omega)
    obtain ⟨a5, p5, l5, w5, u5⟩ := fillCold g cfg.expandedStart hsE (K * cfg.hotRegisters)
      cfg.numClasses (by omega) leftover a4 (by omega)
    simp only [p4, p5, Option.bind_some]
    -- hot registers untouched
    have hot5 : ∀ j, j < K * cfg.hotRegisters → a5[j]? = a3[j]? := by
      intro j hj
      rw [u5 j (by intro i h1 h2; omega), u4 j (by omega)]
    have hotR5 : ∀ (isNew : Bool) (sec : Nat), sec < cfg.secParts →
        RegOk K ts a5 (sec + if isNew then 0 else cfg.secParts) (hotStart cfg isNew sec) := by
      intro isNew sec hsec i c hcov
      have hi := hcov.le_max g
      rw [hot5]
      · exact hot3 isNew sec hsec i c hcov
      · have : K * ((sec + if isNew then 0 else cfg.secParts) + 1) ≤ K * cfg.hotRegisters := by
          apply Nat.mul_le_mul_left
          unfold Cfg.hotRegisters
          split <;> omega
        rw [Nat.mul_add] at this
        omega
    have cold5 : RegOkPos K ts a5 cfg.hotRegisters cfg.expandedStart (hotStart cfg true 0) := by
      intro i c hcov
      have hi := hcov.le_max g
      by_cases hi0 : i = 0
      · subst hi0
        rw [if_pos rfl, u5 _ (by intro i h1 h2; omega)]
        have := w4 0 (by omega)
        rw [this]
        have := h00 0 c hcov
        simpa using this
      · rw [if_neg hi0]
        have := w5 i c (by omega) hcov
        rw [← this]; congr 1; omega
    rcases hnp with hsp | hsp
    · rw [if_neg (by omega)]
      refine ⟨a5, rfl, ⟨by rw [hKd]; exact hotR5, ?_⟩⟩
      intro _ sec hsec
      have : sec = 0 := by omega
      subst this
      rw [hKd]
      simpa using cold5
    · rw [if_pos (by omega)]
      have hr4 : cfg.hotRegisters = 4 := by unfold Cfg.hotRegisters; omega
      have hlen5 : K * 6 ≤ a5.length := by rw [hsp] at htot; omega
      by_cases hfull : cfg.modeFull = true
      · rw [if_pos hfull]
        obtain ⟨a6, p6, l6, w6, u6⟩ := copyReg_spec K K (K * (2 * cfg.secParts + 1)) a5 (by omega)
          (by rw [hsp]; omega)
        rw [hsp] at p6 w6 u6
        rw [hsp]
        refine ⟨a6, p6, ⟨?_, ?_⟩⟩
        · rw [hKd]
          intro isNew sec hsec i c hcov
          have hi := hcov.le_max g
          rw [u6, hotR5 isNew sec hsec i c hcov]
          left
          have : K * ((sec + if isNew then 0 else cfg.secParts) + 1) ≤ K * 4 := by
            apply Nat.mul_le_mul_left
            split <;> omega
          rw [Nat.mul_add] at this
          omega
        · rw [hKd]
          intro _ sec hsec
          have hsec' : sec = 0 ∨ sec = 1 := by omega
          rcases hsec' with rfl | rfl
          · simp only [Nat.zero_ne_one, decide_false, Bool.false_and, Bool.false_eq_true, if_false]
            intro i c hcov
            have hi := hcov.le_max g
            rw [u6 _ (by left; rw [hr4]; omega)]
            have := cold5 i c hcov
            simpa using this
          · simp only [decide_true, Bool.true_and, hfull, if_true]
            intro i c hcov
            have hi := hcov.le_max g
            have h1 := w6 i (by omega)
            have h2 := hotR5 true 1 (by omega) i c hcov
            rw [hr4]
            rw [show K * (1 + 4) + i = K * (2 * 2 + 1) + i by omega, h1, ← h2]
            congr 1; simp
      · rw [if_neg hfull]
        obtain ⟨a6, p6, l6, w6, u6⟩ := copyReg_spec K (K * (2 * cfg.secParts))
          (K * (2 * cfg.secParts + 1)) a5 (by rw [hsp]; omega) (by rw [hsp]; omega)
        rw [hsp] at p6 w6 u6
        rw [hsp]
        refine ⟨a6, p6, ⟨?_, ?_⟩⟩
        · rw [hKd]
          intro isNew sec hsec i c hcov
          have hi := hcov.le_max g
          rw [u6, hotR5 isNew sec hsec i c hcov]
          left
          have : K * ((sec + if isNew then 0 else cfg.secParts) + 1) ≤ K * 4 := by
            apply Nat.mul_le_mul_left
            split <;> omega
          rw [Nat.mul_add] at this
          omega
        · rw [hKd]
          intro _ sec hsec
          have hf : cfg.modeFull = false := by simpa using hfull
          rw [hf]
          simp only [Bool.and_false, Bool.false_eq_true, if_false]
          have hsec' : sec = 0 ∨ sec = 1 := by omega
          rcases hsec' with rfl | rfl
          · intro i c hcov
            have hi := hcov.le_max g
            rw [u6 _ (by left; rw [hr4]; omega)]
            have := cold5 i c hcov
            simpa using this
          · intro i c hcov
            have hi := hcov.le_max g
            have h1 := w6 i (by omega)
            have h2 := cold5 i c hcov
            rw [hr4] at h2 ⊢
            rw [show K * (1 + 4) + i = K * (2 * 2 + 1) + i by omega, h1, ← h2]
  · rw [if_neg hex]
    refine ⟨a3, rfl, ⟨by rw [hKd]; exact hot3, fun h => absurd h hex⟩⟩

end Verif.SizeMap
