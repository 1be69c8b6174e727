import Verif.Topology.Lemmas2
/-
The number of possible CPUs, the NUMA partitions and the L3 caches.
-/
namespace Verif.Topology

theorem first_some {s : CpuSet} {c : Nat} (h : s.first = some c) :
    c < 2048 ∧ s c = true ∧ ∀ x, x < c → s x = false := by
  unfold CpuSet.first at h
  rw [List.find?_range_eq_some] at h
  obtain ⟨h1, h2, h3⟩ := h
  refine ⟨List.mem_range.1 h2, h1, fun x hx => ?_⟩
  have := h3 x hx
  simpa using this

theorem first_none {s : CpuSet} (h : s.first = none) : ∀ x, x < 2048 → s x = false := by
  unfold CpuSet.first at h
  rw [List.find?_range_eq_none] at h
  intro x hx
  have := h x hx
  simpa using this

/-! ### The number of possible CPUs -/

theorem foldl_max : ∀ (l : List Nat) (a : Nat),
    ∃ m, l.foldl (fun m i => some (max i (m.getD 0))) (some a) = some m ∧ a ≤ m ∧
      (∀ x ∈ l, x ≤ m) ∧ (m = a ∨ m ∈ l)
  | [], a => ⟨a, rfl, Nat.le_refl _, (fun x h => by cases h), .inl rfl⟩
  | x :: l, a => by
    obtain ⟨m, h1, h2, h3, h4⟩ := foldl_max l (max x a)
    refine ⟨m, h1, by omega, ?_, ?_⟩
    · intro y hy
      rcases List.mem_cons.1 hy with rfl | hy'
      · omega
      · exact h3 y hy'
    · rcases h4 with h4 | h4
      · by_cases hxa : x ≤ a
        · left; omega
        · right
          have : m = x := by omega
          exact this ▸ List.mem_cons_self
      · exact .inr (List.mem_cons_of_mem _ h4)

theorem parsed_lists {f : File} {s : Nat → Prop} (h : Lists f s) :
    ∃ set, parsed f = some set ∧ ∀ c, set c = true ↔ s c := by
  obtain ⟨set, h1, h2⟩ := parse_lists h
  exact ⟨set, by unfold parsed; rw [h1]; rfl, h2⟩

theorem numPossible_lists {f : File} {s : Nat → Prop} {m : Nat} (h : Lists f s) (hm : s m)
    (hmax : ∀ c, s c → c ≤ m) : numPossibleCPUs f = some (m + 1) := by
  obtain ⟨set, h1, h2⟩ := parsed_lists h
  have hlt := lists_lt h
  unfold numPossibleCPUs
  rw [h1]
  simp only [Option.bind_some]
  have hmem : ∀ x, x ∈ (List.range kMaxCpus).filter set ↔ s x := by
    intro x
    rw [List.mem_filter, List.mem_range, h2]
    exact ⟨fun h => h.2, fun h => ⟨hlt x h, h⟩⟩
  generalize (List.range kMaxCpus).filter set = l at hmem
  cases l with
  | nil => exact absurd ((hmem m).2 hm) (by simp)
  | cons x l =>
    obtain ⟨k, e1, e2, e3, e4⟩ := foldl_max l x
    have hx : max x 0 = x := by omega
    simp only [List.foldl_cons, Option.getD_none, hx]
    rw [e1]
    have hk : s k := by
      apply (hmem k).1
      rcases e4 with e4 | e4
      · exact e4 ▸ List.mem_cons_self
      · exact List.mem_cons_of_mem _ e4
    have h3 := hmax k hk
    have h4 : m ≤ k := by
      rcases List.mem_cons.1 ((hmem m).2 hm) with h | h
      · omega
      · exact e3 m h
    simp only [Option.map_some, Option.some.injEq]
    omega

/-! ### NUMA -/

theorem assign_list (s : CpuSet) (v : Nat) (x : Nat) : ∀ (l : List Nat) (m : Nat → Nat),
    (l.foldl (fun m cpu => if s cpu then update m (cpu + kNumaCpuFudge) v else m) m) x =
      if ∃ c ∈ l, s c = true ∧ x = c + 2 then v else m x
  | [], m => by simp
  | a :: l, m => by
    rw [List.foldl_cons, assign_list s v x l]
    by_cases h1 : ∃ c ∈ l, s c = true ∧ x = c + 2
    · rw [if_pos h1, if_pos]
      obtain ⟨c, h, h'⟩ := h1
      exact ⟨c, List.mem_cons_of_mem _ h, h'⟩
    · rw [if_neg h1]
      by_cases h2 : s a = true
      · rw [if_pos h2]
        unfold update
        by_cases h3 : x = a + 2
        · have : x = a + kNumaCpuFudge := h3
          rw [if_pos this, if_pos ⟨a, List.mem_cons_self, h2, h3⟩]
        · have : ¬ x = a + kNumaCpuFudge := h3
          rw [if_neg this, if_neg]
          rintro ⟨c, hc, h4, h5⟩
          rcases List.mem_cons.1 hc with rfl | hc'
          · exact h3 h5
          · exact h1 ⟨c, hc', h4, h5⟩
      · rw [if_neg h2, if_neg]
        rintro ⟨c, hc, h4, h5⟩
        rcases List.mem_cons.1 hc with rfl | hc'
        · exact h2 h4
        · exact h1 ⟨c, hc', h4, h5⟩

theorem assign_mem {s : CpuSet} {c : Nat} (m : Nat → Nat) (v : Nat) (hc : c < 2048)
    (hs : s c = true) : assignCpus m s v (c + 2) = v := by
  unfold assignCpus
  rw [assign_list, if_pos]
  exact ⟨c, List.mem_range.2 hc, hs, rfl⟩

theorem assign_other {s : CpuSet} {x : Nat} (m : Nat → Nat) (v : Nat)
    (h : ∀ c, x = c + 2 → s c = false) : assignCpus m s v x = m x := by
  unfold assignCpus
  rw [assign_list, if_neg]
  rintro ⟨c, -, h1, h2⟩
  rw [h c h2] at h1
  cases h1

attribute [local irreducible] assignCpus

theorem nonempty_iff {s : CpuSet} (h : Small s) : s.nonempty = true ↔ ∃ c, s c = true := by
  unfold CpuSet.nonempty
  rw [List.any_eq_true]
  constructor
  · rintro ⟨c, -, h⟩
    exact ⟨c, h⟩
  · rintro ⟨c, hc⟩
    exact ⟨c, List.mem_range.2 (h c hc), hc⟩

/-- What the loop over the nodes has established before node `j`. -/
structure NInv (P scale : Nat) (N : Nat → Nat → Prop) (mode : BindMode) (j : Nat) (t : Numa)
    (aware : Bool) : Prop where
  bits : ∀ p n, (t.partitionToNodes p).testBit n = true ↔ (n < j ∧ n % P = p) ∨ (n = 0 ∧ p = 0)
  on : ∀ n, n < j → ∀ c, N n c → t.cpuToScaled (c + 2) = n % P * scale
  off : ∀ c, (∀ n, n < j → ¬ N n c) → t.cpuToScaled (c + 2) = 0
  low : ∀ x, x < 2 → t.cpuToScaled x = 0
  awr : aware = true ↔ ∃ n, n < j ∧ n % P ≠ 0 ∧ ∃ c, N n c
  flag : t.numaAware = false
  gate : ∀ x, t.gated x = 0
  mode : t.bindMode = mode

theorem shl1_small {n : Nat} (h : n < 31) : shl1 n = some (2 ^ n) := if_pos h

theorem bits_step {P : Nat} {f : Nat → Nat} {j : Nat}
    (h : ∀ p n, (f p).testBit n = true ↔ (n < j ∧ n % P = p) ∨ (n = 0 ∧ p = 0)) :
    ∀ p n, ((update f (j % P) (f (j % P) ||| 2 ^ j)) p).testBit n = true ↔
      (n < j + 1 ∧ n % P = p) ∨ (n = 0 ∧ p = 0) := by
  intro p n
  unfold update
  by_cases hp : p = j % P
  · rw [if_pos hp, Nat.testBit_or, Bool.or_eq_true, h, Nat.testBit_two_pow, decide_eq_true_eq]
    constructor
    · rintro ((⟨h1, h2⟩ | ⟨h1, h2⟩) | h1)
      · exact .inl ⟨by omega, by omega⟩
      · exact .inr ⟨h1, by omega⟩
      · exact .inl ⟨by omega, by rw [← h1]; exact hp.symm⟩
    · rintro (⟨h1, h2⟩ | ⟨h1, h2⟩)
      · by_cases hn : n = j
        · exact .inr hn.symm
        · exact .inl (.inl ⟨by omega, by omega⟩)
      · exact .inl (.inr ⟨h1, by omega⟩)
  · rw [if_neg hp, h]
    constructor
    · rintro (⟨h1, h2⟩ | h1)
      · exact .inl ⟨by omega, h2⟩
      · exact .inr h1
    · rintro (⟨h1, h2⟩ | h1)
      · refine .inl ⟨?_, h2⟩
        have : n ≠ j := by
          rintro rfl
          exact hp h2.symm
        omega
      · exact .inr h1

theorem nodeLoop_ok {P scale : Nat} {opened : Nat → Opened} {N : Nat → Nat → Prop} {k : Nat}
    {mode : BindMode} (hk : k ≤ 31)
    (hfile : ∀ n, n < k → ∃ f, opened n = .file f ∧ Lists f (N n)) (hend : opened k = .missing)
    (hdis : ∀ n n' c, n < k → n' < k → N n c → N n' c → n = n') :
    ∀ (fuel j : Nat) (t : Numa) (aware : Bool), j ≤ k → k < j + fuel →
      NInv P scale N mode j t aware →
      ∃ t' aware', nodeLoop P scale opened fuel j (t, aware) = some (t', aware') ∧
        NInv P scale N mode k t' aware' ∧ t'.numNodes = k
  | 0, j, t, aware, h1, h2, _ => by omega
  | fuel + 1, j, t, aware, hj, hfu, inv => by
    unfold nodeLoop
    by_cases hjk : j = k
    · subst hjk
      rw [hend]
      exact ⟨_, _, rfl, ⟨inv.bits, inv.on, inv.off, inv.low, inv.awr, inv.flag, inv.gate, inv.mode⟩, rfl⟩
    · obtain ⟨f, hf, hl⟩ := hfile j (by omega)
      rw [hf]
      simp only
      rw [shl1_small (by omega)]
      simp only [Option.bind_some]
      have hbits := bits_step inv.bits
      by_cases hp : j % P = 0
      · rw [if_pos hp]
        refine nodeLoop_ok hk hfile hend hdis fuel (j + 1) _ _ (by omega) (by omega)
          ⟨hbits, ?_, ?_, inv.low, ?_, inv.flag, inv.gate, inv.mode⟩
        · intro n hn c hc
          by_cases hnj : n = j
          · subst hnj
            rw [hp, Nat.zero_mul]
            apply inv.off
            intro n' hn' hc'
            have := hdis n n' c (by omega) (by omega) hc hc'
            omega
          · exact inv.on n (by omega) c hc
        · intro c hc
          exact inv.off c fun n hn => hc n (by omega)
        · rw [inv.awr]
          constructor
          · rintro ⟨n, a, b⟩
            exact ⟨n, by omega, b⟩
          · rintro ⟨n, a, b, c⟩
            have : n ≠ j := by
              rintro rfl
              exact b hp
            exact ⟨n, by omega, b, c⟩
      · rw [if_neg hp]
        obtain ⟨set, hs1, hs2⟩ := parsed_lists hl
        have hsm : Small set := fun c hc => lists_lt hl c ((hs2 c).1 hc)
        rw [hs1]
        simp only [Option.bind_some]
        refine nodeLoop_ok hk hfile hend hdis fuel (j + 1) _ _ (by omega) (by omega)
          ⟨hbits, ?_, ?_, ?_, ?_, inv.flag, inv.gate, inv.mode⟩
        · intro n hn c hc
          by_cases hnj : n = j
          · subst hnj
            have hcs := (hs2 c).2 hc
            exact assign_mem _ _ (hsm c hcs) hcs
          · show assignCpus _ _ _ _ = _
            rw [assign_other]
            · exact inv.on n (by omega) c hc
            · intro c' h
              have : c' = c := by omega
              subst this
              cases hsc : set c' with
              | false => rfl
              | true =>
                have := hdis n j c' (by omega) (by omega) hc ((hs2 c').1 hsc)
                omega
        · intro c hc
          show assignCpus _ _ _ _ = _
          rw [assign_other]
          · exact inv.off c fun n hn => hc n (by omega)
          · intro c' h
            have : c' = c := by omega
            subst this
            cases hsc : set c' with
            | false => rfl
            | true => exact absurd ((hs2 c').1 hsc) (hc j (by omega))
        · intro x hx
          show assignCpus _ _ _ _ = _
          rw [assign_other]
          · exact inv.low x hx
          · intro c h
            omega
        · rw [Bool.or_eq_true, inv.awr, nonempty_iff hsm]
          constructor
          · rintro (⟨n, a, b⟩ | ⟨c, hc⟩)
            · exact ⟨n, by omega, b⟩
            · exact ⟨j, by omega, hp, c, (hs2 c).1 hc⟩
          · rintro ⟨n, a, b, c, hc⟩
            by_cases hnj : n = j
            · subst hnj
              exact .inr ⟨c, (hs2 c).2 hc⟩
            · exact .inl ⟨n, by omega, b, c, hc⟩

attribute [local irreducible] kMaxCpus

theorem kMax : kMaxCpus = 2048 := by unfold kMaxCpus; rfl

/-! ### L3 caches -/

theorem shareLoop_ok (v : Nat) {M : Nat} (hM : 2048 = M) : ∀ (fuel : Nat) (shared check : CpuSet) (index : Nat → Nat),
    (∀ c, shared c = true → c < M ∧ M < c + fuel) → 0 < fuel →
    ∀ x, (shareLoop v fuel shared (check, index)).1 x = (!shared x && check x) ∧
      (shareLoop v fuel shared (check, index)).2 x = if shared x = true then v else index x := by
  intro fuel
  induction fuel with
  | zero => intro _ _ _ _ h; exact absurd h (Nat.lt_irrefl 0)
  | succ fuel ih =>
    intro shared check index hsh _ x
    unfold shareLoop
    cases hf : shared.first with
    | none =>
      have hn := first_none hf
      have hx : shared x = false := by
        cases h : shared x with
        | false => rfl
        | true => rw [hn x (hM ▸ (hsh x h).1)] at h; cases h
      simp [hx]
    | some c =>
      obtain ⟨h1, h2, h3⟩ := first_some hf
      rw [hM] at h1
      have hc := hsh c h2
      have hclr : ∀ y, shared.clr c y = true → y < M ∧ M < y + fuel := by
        intro y hy
        unfold CpuSet.clr at hy
        rw [Bool.and_eq_true, bne_iff_ne] at hy
        have := (hsh y hy.2).1
        have : c < y := by
          rcases Nat.lt_trichotomy y c with h | h | h
          · rw [h3 y h] at hy; cases hy.2
          · exact absurd h hy.1
          · exact h
        omega
      obtain ⟨e1, e2⟩ := ih (shared.clr c) (check.clr c) (update index c v) hclr
        (by omega) x
      simp only
      rw [e1, e2]
      unfold CpuSet.clr update
      by_cases hxc : x = c
      · subst hxc
        simp [h2]
      · have hb : (x != c) = true := by simpa using hxc
        rw [hb]
        simp [hxc]

theorem leads_iff {share : Nat → Nat → Bool} {c : Nat} :
    leads share c = true ↔ ∀ d, d < c → share d c = false := by
  unfold leads
  rw [List.all_eq_true]
  constructor
  · intro h d hd
    have := h d (List.mem_range.2 hd)
    simpa using this
  · intro h d hd
    rw [h d (List.mem_range.1 hd)]
    rfl

theorem leadersBelow_succ (share : Nat → Nat → Bool) (a : Nat) :
    leadersBelow share (a + 1) = leadersBelow share a + if leads share a = true then 1 else 0 := by
  unfold leadersBelow
  rw [List.range_succ, List.filter_append, List.length_append]
  by_cases h : leads share a = true
  · simp [h]
  · simp [h]

theorem leadersBelow_skip (share : Nat → Nat → Bool) (a : Nat) : ∀ (b : Nat), a ≤ b →
    (∀ x, a ≤ x → x < b → leads share x = false) → leadersBelow share b = leadersBelow share a
  | 0, h, _ => by
    have : a = 0 := by omega
    rw [this]
  | b + 1, h, hn => by
    by_cases hab : a = b + 1
    · rw [hab]
    · rw [leadersBelow_succ, hn b (by omega) (by omega),
        leadersBelow_skip share a b (by omega) (fun x h1 h2 => hn x h1 (by omega))]
      simp

structure CInv (n : Nat) (share : Nat → Nat → Bool) (a : Nat) (check : CpuSet) (t : Cache) :
    Prop where
  le : a ≤ n
  chk : ∀ c, check c = true ↔ c < n ∧ ∀ l, l < a → share l c = false
  count : t.l3Count = leadersBelow share a
  cpus : t.cpuCount = n
  idx : ∀ l, l < a → leads share l = true → ∀ c, share l c = true →
    t.index c = leadersBelow share l % 256

theorem cacheLoop_ok {M : Nat} (hM : 2048 = M) {n : Nat} {share : Nat → Nat → Bool} {opened : Nat → Opened}
    (hn : n ≤ M) (hsh : Sharing n share)
    (hfile : ∀ c, c < n → ∃ f, opened c = .file f ∧ Lists f (fun d => share c d = true)) :
    ∀ (fuel a : Nat) (check : CpuSet) (t : Cache), M < a + fuel → 0 < fuel →
      CInv n share a check t →
      ∃ t', cacheLoop opened fuel check t = some t' ∧ t'.cpuCount = n ∧
        t'.l3Count = leadersBelow share n ∧
        ∀ l c, leads share l = true → share l c = true →
          t'.index c = leadersBelow share l % 256 := by
  intro fuel
  induction fuel with
  | zero => intro _ _ _ _ h; exact absurd h (Nat.lt_irrefl 0)
  | succ fuel ih =>
    intro a check t hfu _ inv
    unfold cacheLoop
    cases hf : check.first with
    | none =>
      have hnone := first_none hf
      have hall : ∀ c, c < n → ∃ l, l < a ∧ share l c = true := by
        intro c hc
        have h1 := hnone c (by rw [hM]; omega)
        apply Classical.byContradiction
        intro hne
        have : check c = true := (inv.chk c).2 ⟨hc, fun l hl => by
          cases h : share l c with
          | false => rfl
          | true => exact absurd ⟨l, hl, h⟩ hne⟩
        rw [h1] at this
        cases this
      refine ⟨t, rfl, inv.cpus, ?_, ?_⟩
      · rw [inv.count]
        refine (leadersBelow_skip share a n inv.le ?_).symm
        intro x hx hxn
        obtain ⟨l, hl, hs⟩ := hall x hxn
        cases h : leads share x with
        | false => rfl
        | true =>
          rw [leads_iff.1 h l (by omega)] at hs
          cases hs
      · intro l c hl hs
        obtain ⟨l', hl', hs'⟩ := hall l (hsh.dom l c hs).1
        have : l < a := by
          apply Classical.byContradiction
          intro hge
          rw [leads_iff.1 hl l' (by omega)] at hs'
          cases hs'
        exact inv.idx l this hl c hs
    | some cpu =>
      obtain ⟨h1, h2, h3⟩ := first_some hf
      rw [hM] at h1
      obtain ⟨hcn, hcl⟩ := (inv.chk cpu).1 h2
      have hge : a ≤ cpu := by
        apply Classical.byContradiction
        intro h
        have := hcl cpu (by omega)
        rw [hsh.refl cpu hcn] at this
        cases this
      have hmid : ∀ x, a ≤ x → x < cpu → ∃ l, l < a ∧ share l x = true := by
        intro x hx hxc
        have hx0 := h3 x hxc
        apply Classical.byContradiction
        intro hne
        have : check x = true := (inv.chk x).2 ⟨by omega, fun l hl => by
          cases h : share l x with
          | false => rfl
          | true => exact absurd ⟨l, hl, h⟩ hne⟩
        rw [hx0] at this
        cases this
      have hlow : ∀ x, x < cpu → share x cpu = false := by
        intro x hx
        by_cases hxa : x < a
        · exact hcl x hxa
        · cases h : share x cpu with
          | false => rfl
          | true =>
            obtain ⟨l, hl, hs⟩ := hmid x (by omega) hx
            have := hcl l hl
            rw [hsh.trans l x cpu hs h] at this
            cases this
      have hlead : leads share cpu = true := leads_iff.2 hlow
      have hskip : leadersBelow share cpu = leadersBelow share a := by
        apply leadersBelow_skip share a cpu hge
        intro x hx hxc
        obtain ⟨l, hl, hs⟩ := hmid x hx hxc
        cases h : leads share x with
        | false => rfl
        | true =>
          rw [leads_iff.1 h l (by omega)] at hs
          cases hs
      obtain ⟨f, hf1, hf2⟩ := hfile cpu hcn
      obtain ⟨set, hs1, hs2⟩ := parsed_lists hf2
      simp only
      rw [hf1]
      simp only
      rw [hs1]
      simp only [Option.bind_some]
      have hshare := shareLoop_ok (t.l3Count % 256) hM (kMaxCpus + 1) (set.clr cpu) (check.clr cpu)
        (update t.index cpu (t.l3Count % 256)) (by
          intro c hc
          unfold CpuSet.clr at hc
          rw [Bool.and_eq_true, bne_iff_ne] at hc
          have h4 := lists_lt hf2 c ((hs2 c).1 hc.2)
          rw [hM] at h4
          have h5 : cpu < c := by
            rcases Nat.lt_trichotomy c cpu with h | h | h
            · have h6 := hsh.symm _ _ ((hs2 c).1 hc.2)
              rw [hlow c h] at h6
              cases h6
            · exact absurd h hc.1
            · exact h
          have := kMax.trans hM
          omega) (Nat.succ_pos _)
      generalize hr : shareLoop (t.l3Count % 256) (kMaxCpus + 1) (set.clr cpu)
        (check.clr cpu, update t.index cpu (t.l3Count % 256)) = r at hshare ⊢
      have hr1 : ∀ x, r.1 x = true ↔ check x = true ∧ share cpu x = false := by
        intro x
        rw [(hshare x).1]
        unfold CpuSet.clr
        by_cases hx : x = cpu
        · subst hx
          have := hsh.refl x hcn
          simp [this]
        · have hb : (x != cpu) = true := by simpa using hx
          cases hsc : share cpu x with
          | true => simp [hb, (hs2 x).2 hsc]
          | false =>
            have : set x = false := by
              cases h : set x with
              | false => rfl
              | true => rw [(hs2 x).1 h] at hsc; cases hsc
            simp [hb, this]
      have hr2 : ∀ x, r.2 x = if share cpu x = true then t.l3Count % 256 else t.index x := by
        intro x
        rw [(hshare x).2]
        unfold CpuSet.clr update
        by_cases hx : x = cpu
        · subst hx
          have := hsh.refl x hcn
          simp [this]
        · have hb : (x != cpu) = true := by simpa using hx
          cases hsc : share cpu x with
          | true => simp [hb, (hs2 x).2 hsc]
          | false =>
            have : set x = false := by
              cases h : set x with
              | false => rfl
              | true => rw [(hs2 x).1 h] at hsc; cases hsc
            simp [hx, this]
      refine ih (cpu + 1) _ _ (by omega) (by omega)
        ⟨by omega, ?_, ?_, inv.cpus, ?_⟩
      · intro c
        rw [hr1, inv.chk]
        constructor
        · rintro ⟨⟨a1, a2⟩, a3⟩
          refine ⟨a1, fun l hl => ?_⟩
          by_cases hla : l < a
          · exact a2 l hla
          · by_cases hlc : l = cpu
            · rw [hlc]; exact a3
            · obtain ⟨l', hl', hs'⟩ := hmid l (by omega) (by omega)
              cases h : share l c with
              | false => rfl
              | true =>
                have := a2 l' hl'
                rw [hsh.trans _ _ _ hs' h] at this
                cases this
        · rintro ⟨a1, a2⟩
          exact ⟨⟨a1, fun l hl => a2 l (by omega)⟩, a2 cpu (by omega)⟩
      · show t.l3Count + 1 = _
        rw [leadersBelow_succ, hlead, hskip, inv.count]
        simp
      · intro l hl hll c hs
        show r.2 c = _
        rw [hr2]
        by_cases hlc : l = cpu
        · subst hlc
          rw [if_pos hs, hskip, inv.count]
        · have hla : l < a := by
            apply Classical.byContradiction
            intro hge'
            obtain ⟨l', hl', hs'⟩ := hmid l (by omega) (by omega)
            rw [leads_iff.1 hll l' (by omega)] at hs'
            cases hs'
          have hnc : ¬ share cpu c = true := by
            intro h
            have := hcl l hla
            rw [hsh.trans _ _ _ hs (hsh.symm _ _ h)] at this
            cases this
          rw [if_neg hnc]
          exact inv.idx l hla hll c hs

end Verif.Topology
