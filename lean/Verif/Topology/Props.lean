import Verif.Topology.Lemmas3
/-
C64: CPU lists are read exactly.  C65: the NUMA partitions and cache indices are those of the
machine.
-/
namespace Verif.Topology

/-! ### C64 -/

/-- C64.  A file that holds a list of CPUs, however its text is cut into pieces by `read`, gives
exactly the CPUs listed. -/
theorem parse_exact {f : File} {s : Nat → Prop} (h : Lists f s) :
    ∃ set, parseCpulist f = some (some set) ∧ ∀ c, set c = true ↔ s c := parse_lists h

/-- C64.  Whatever the file holds and however it is read, reading it ends, and it either fails or
gives a set of CPUs below 2048. -/
theorem parse_total (f : File) :
    ∃ r, parseCpulist f = some r ∧ ∀ set, r = some set → ∀ c, set c = true → c < 2048 := by
  unfold parseCpulist
  exact loop_total f _ _ (by simp) (by simp) (fun c hc => by cases hc)

/-- C64.  The number of possible CPUs is one more than the largest number in the list. -/
theorem possible_exact {f : File} {s : Nat → Prop} {m : Nat} (h : Lists f s) (hm : s m)
    (hmax : ∀ c, s c → c ≤ m) : numPossibleCPUs f = some (m + 1) := numPossible_lists h hm hmax

/-- C64.  It is never more than 2048, whatever the file holds. -/
theorem possible_le {f : File} {n : Nat} (h : numPossibleCPUs f = some n) : 1 ≤ n ∧ n ≤ 2048 := by
  unfold numPossibleCPUs at h
  cases hp : parsed f with
  | none => rw [hp] at h; cases h
  | some set =>
    rw [hp] at h
    simp only [Option.bind_some] at h
    have hmem : ∀ x ∈ (List.range kMaxCpus).filter set, x < 2048 := fun x hx =>
      List.mem_range.1 (List.mem_filter.1 hx).1
    generalize (List.range kMaxCpus).filter set = l at h hmem
    cases l with
    | nil => cases h
    | cons x l =>
      obtain ⟨k, e1, e2, e3, e4⟩ := foldl_max l x
      have hx : max x 0 = x := by omega
      simp only [List.foldl_cons, Option.getD_none, hx] at h
      rw [e1] at h
      simp only [Option.map_some, Option.some.injEq] at h
      have hk : k < 2048 := by
        rcases e4 with e4 | e4
        · exact hmem k (e4 ▸ List.mem_cons_self)
        · exact hmem k (List.mem_cons_of_mem _ e4)
      omega

/-! ### C65 -/

/-- C65.  On a machine with at most 31 NUMA nodes the topology is the machine's: every CPU of node
`n` is in partition `n mod P`, other CPUs and the CPU numbers −1 and −2 are in partition 0, each
partition's mask has exactly the bits of its nodes, and awareness is on exactly when it is wanted
and some CPU is outside partition 0; when it is off the current partition is always 0. -/
theorem numa_exact {P scale : Nat} {dflt : Bool} {env : Option Str} {possible : File}
    {opened : Nat → Opened} {fuel k : Nat} {N : Nat → Nat → Prop} {enabled : Bool}
    {mode : BindMode} {all : Nat → Prop} {m : Nat}
    (henv : readEnv dflt env = some (enabled, mode))
    (hpos : Lists possible all) (hm : all m) (hmax : ∀ c, all c → c ≤ m)
    (hnodes : Nodes opened k N) (hk : k ≤ 31) (hfuel : k < fuel) :
    ∃ t, numaInit P scale true dflt env possible opened fuel = some t ∧
      t.numNodes = k ∧ t.bindMode = mode ∧
      (∀ n c, n < k → N n c → t.cpuScaled c = n % P * scale) ∧
      (∀ c : Nat, (∀ n, n < k → ¬ N n c) → t.cpuScaled c = 0) ∧
      t.cpuScaled (-1) = 0 ∧ t.cpuScaled (-2) = 0 ∧
      (∀ p n, (t.partitionToNodes p).testBit n = true ↔ (n < k ∧ n % P = p) ∨ (n = 0 ∧ p = 0)) ∧
      (t.numaAware = true ↔ enabled = true ∧ ∃ n c, n < k ∧ n % P ≠ 0 ∧ N n c) ∧
      ∀ c : Int, t.currentScaled c = if t.numaAware then t.cpuScaled c else 0 := by
  have hnum := numPossible_lists hpos hm hmax
  have hlt := lists_lt hpos m hm
  have hle : m + 1 ≤ kMaxCpus := hlt
  obtain ⟨t, aware, h1, inv, h2⟩ := nodeLoop_ok (P := P) (scale := scale) (mode := mode) hk
    hnodes.here hnodes.last hnodes.disjoint fuel 0
    { Numa.zero with
        partitionToNodes := update Numa.zero.partitionToNodes (0 % P) 1, bindMode := mode }
    false (by omega) (by omega)
    ⟨by
      intro p n
      show ((update (fun _ => 0) (0 % P) 1) p).testBit n = true ↔ _
      rw [Nat.zero_mod]
      unfold update
      by_cases hp : p = 0
      · rw [if_pos hp]
        have : (1 : Nat) = 2 ^ 0 := rfl
        rw [this, Nat.testBit_two_pow, decide_eq_true_eq]
        omega
      · rw [if_neg hp]
        simp [hp],
     (fun n h => by omega), (fun c _ => rfl), (fun x _ => rfl),
     ⟨(fun h => by cases h), (fun ⟨n, h, _⟩ => by omega)⟩, rfl, (fun x => rfl), rfl⟩
  have hinit : numaInit P scale true dflt env possible opened fuel =
      some (if (enabled && aware) = true then
        { t with numaAware := true, gated := t.cpuToScaled } else t) := by
    unfold numaInit
    dsimp only
    rw [if_pos rfl, henv]
    dsimp only [Option.bind_some]
    rw [hnum]
    dsimp only [Option.bind_some]
    rw [if_pos hle, h1]
    rfl
  have hon : ∀ n c, n < k → N n c → t.cpuToScaled ((c : Int) + (kNumaCpuFudge : Nat)).toNat =
      n % P * scale := fun n c hn hc => inv.on n hn c hc
  have hoff : ∀ c : Nat, (∀ n, n < k → ¬ N n c) →
      t.cpuToScaled ((c : Int) + (kNumaCpuFudge : Nat)).toNat = 0 := fun c hc => inv.off c hc
  by_cases hon' : (enabled && aware) = true
  · rw [if_pos hon'] at hinit
    rw [Bool.and_eq_true, inv.awr] at hon'
    refine ⟨_, hinit, h2, inv.mode, hon, hoff, inv.low 1 (by omega), inv.low 0 (by omega),
      inv.bits, ?_, fun c => rfl⟩
    constructor
    · intro _
      obtain ⟨e, n, a, b, c, d⟩ := hon'
      exact ⟨e, n, c, a, b, d⟩
    · intro _; rfl
  · rw [if_neg hon'] at hinit
    rw [Bool.and_eq_true, inv.awr] at hon'
    refine ⟨_, hinit, h2, inv.mode, hon, hoff, inv.low 1 (by omega), inv.low 0 (by omega),
      inv.bits, ?_, ?_⟩
    · rw [inv.flag]
      constructor
      · intro h; cases h
      · rintro ⟨e, n, c, a, b, d⟩
        exact absurd ⟨e, n, a, b, c, d⟩ hon'
    · intro c
      rw [inv.flag]
      exact inv.gate _

/-- C65.  What the environment variable means: unset leaves the build's default, `0` turns awareness
off, the other four words turn it on with their way of binding, and anything else is reported. -/
theorem env_exact (dflt : Bool) :
    readEnv dflt none = some (dflt, .advisory) ∧
    readEnv dflt (some ['0']) = some (false, .advisory) ∧
    readEnv dflt (some ['1']) = some (true, .advisory) ∧
    readEnv dflt (some "advisory-binding".toList) = some (true, .advisory) ∧
    readEnv dflt (some "no-binding".toList) = some (true, .none) ∧
    readEnv dflt (some "strict-binding".toList) = some (true, .strict) ∧
    ∀ s, s ∉ [['0'], ['1'], "advisory-binding".toList, "no-binding".toList,
      "strict-binding".toList] → readEnv dflt (some s) = none := by
  refine ⟨rfl, by decide +revert, by decide +revert, by decide +revert, by decide +revert,
    by decide +revert, ?_⟩
  intro s hs
  simp only [List.mem_cons, List.not_mem_nil, or_false, not_or] at hs
  obtain ⟨h1, h2, h3, h4, h5⟩ := hs
  unfold readEnv
  have e0 : "0".toList = ['0'] := rfl
  have e1 : "1".toList = ['1'] := rfl
  have f1 : (s == ['0']) = false := beq_false_of_ne h1
  have f2 : (s == ['1']) = false := beq_false_of_ne h2
  have f3 := beq_false_of_ne h3
  have f4 := beq_false_of_ne h4
  have f5 := beq_false_of_ne h5
  simp only [e0, e1, f1, f2, f3, f4, f5]
  rfl

/-- C65.  Without restartable sequences there is one partition, whatever the machine is. -/
theorem numa_slow (P scale : Nat) (dflt : Bool) (env : Option Str) (possible : File)
    (opened : Nat → Opened) (fuel : Nat) :
    ∃ t, numaInit P scale false dflt env possible opened fuel = some t ∧ t.numaAware = false ∧
      t.numNodes = 1 ∧ t.partitionToNodes 0 = 1 ∧
      ∀ c : Int, t.cpuScaled c = 0 ∧ t.currentScaled c = 0 :=
  ⟨_, rfl, rfl, rfl, by simp [update], fun _ => ⟨rfl, rfl⟩⟩

/-- C65.  If every possible CPU's list of those sharing its L3 cache can be read, there is one
index for each cache, and the CPUs of the cache whose first CPU is `l` have as index the number of
caches that come before, in 8 bits. -/
theorem cache_exact {possible : File} {opened : Nat → Opened} {all : Nat → Prop} {m : Nat}
    {share : Nat → Nat → Bool} (hpos : Lists possible all) (hm : all m)
    (hmax : ∀ c, all c → c ≤ m) (hsh : Sharing (m + 1) share)
    (hfile : ∀ c, c ≤ m → ∃ f, opened c = .file f ∧ Lists f (fun d => share c d = true)) :
    ∃ t, cacheInit possible opened = some t ∧ t.cpuCount = m + 1 ∧
      t.l3Count = leadersBelow share (m + 1) ∧
      ∀ l c, leads share l = true → share l c = true → t.index c = leadersBelow share l % 256 := by
  have hnum := numPossible_lists hpos hm hmax
  have hlt := lists_lt hpos m hm
  unfold cacheInit
  rw [hnum]
  refine cacheLoop_ok (M := 2048) rfl (n := m + 1) hlt hsh (fun c hc => hfile c (by omega))
    (kMaxCpus + 1) 0 _ _ ?_ (Nat.succ_pos _) ⟨by omega, ?_, rfl, rfl, fun l hl => by omega⟩
  · have := kMax
    omega
  · intro c
    rw [decide_eq_true_eq]
    exact ⟨fun h => ⟨h, fun l hl => by omega⟩, fun h => h.1⟩

theorem leadersBelow_lt {share : Nat → Nat → Bool} {l : Nat} (h : leads share l = true) :
    ∀ n, l < n → leadersBelow share l < leadersBelow share n
  | 0, hl => by omega
  | n + 1, hl => by
    rw [leadersBelow_succ]
    by_cases hln : l = n
    · subst hln
      rw [if_pos h]
      omega
    · have := leadersBelow_lt h n (by omega)
      omega

theorem has_leader {n : Nat} {share : Nat → Nat → Bool} (hsh : Sharing n share) :
    ∀ c, c < n → ∃ l, leads share l = true ∧ share l c = true := by
  intro c
  induction c using Nat.strongRecOn with
  | _ c ih =>
    intro hc
    by_cases h : leads share c = true
    · exact ⟨c, h, hsh.refl c hc⟩
    · have : ∃ d, d < c ∧ share d c = true := by
        apply Classical.byContradiction
        intro hne
        exact h (leads_iff.2 fun d hd => by
          cases h : share d c with
          | false => rfl
          | true => exact absurd ⟨d, hd, h⟩ hne)
      obtain ⟨d, hd, hs⟩ := this
      obtain ⟨l, h1, h2⟩ := ih d hd (by omega)
      exact ⟨l, h1, hsh.trans _ _ _ h2 hs⟩

/-- C65.  With at most 256 caches two CPUs have the same index exactly when they share their cache,
and looking an index up never trips its assertions. -/
theorem cache_same {possible : File} {opened : Nat → Opened} {all : Nat → Prop} {m : Nat}
    {share : Nat → Nat → Bool} (hpos : Lists possible all) (hm : all m)
    (hmax : ∀ c, all c → c ≤ m) (hsh : Sharing (m + 1) share)
    (hfile : ∀ c, c ≤ m → ∃ f, opened c = .file f ∧ Lists f (fun d => share c d = true))
    (h256 : leadersBelow share (m + 1) ≤ 256) :
    ∃ t, cacheInit possible opened = some t ∧
      (∀ c, c ≤ m → t.l3 c = some (t.index c)) ∧
      ∀ c d, c ≤ m → d ≤ m → (t.l3 c = t.l3 d ↔ share c d = true) := by
  obtain ⟨t, h1, h2, h3, h4⟩ := cache_exact hpos hm hmax hsh hfile
  have key : ∀ c, c ≤ m → ∃ l, leads share l = true ∧ share l c = true ∧
      t.index c = leadersBelow share l ∧ leadersBelow share l < leadersBelow share (m + 1) := by
    intro c hc
    obtain ⟨l, e1, e2⟩ := has_leader hsh c (by omega)
    have hl := (hsh.dom _ _ e2).1
    have hlt := leadersBelow_lt e1 (m + 1) hl
    exact ⟨l, e1, e2, by rw [h4 l c e1 e2]; exact Nat.mod_eq_of_lt (by omega), hlt⟩
  have hl3 : ∀ c, c ≤ m → t.l3 c = some (t.index c) := by
    intro c hc
    obtain ⟨l, -, -, e3, e4⟩ := key c hc
    unfold Cache.l3
    rw [if_pos ⟨by omega, by omega⟩]
  refine ⟨t, h1, hl3, ?_⟩
  intro c d hc hd
  rw [hl3 c hc, hl3 d hd, Option.some.injEq]
  obtain ⟨l, a1, a2, a3, a4⟩ := key c hc
  obtain ⟨l', b1, b2, b3, b4⟩ := key d hd
  constructor
  · intro heq
    have : l = l' := by
      rcases Nat.lt_trichotomy l l' with h | h | h
      · have := leadersBelow_lt a1 l' h
        omega
      · exact h
      · have := leadersBelow_lt b1 l h
        omega
    subst this
    exact hsh.trans _ _ _ (hsh.symm _ _ a2) b2
  · intro hs
    have h5 : share l d = true := hsh.trans _ _ _ a2 hs
    rw [h4 l c a1 a2, h4 l d a1 h5]

/-! ### Concrete cases -/

/-- A file read three bytes at a time. -/
def fileOf (s : String) : File := ⟨s.toList, fun _ => some 3⟩

def demoItems : List Item := [.range ['0'] 0 ['1', '1'] 11, .one ['2', '0', '4', '7'] 2047]

/-- The hypothesis of `parse_exact` is met. -/
theorem demo_lists : Lists (fileOf "0-11,2047\n") (fun c => c ≤ 11 ∨ c = 2047) := by
  refine ⟨(fun _ h => by cases h), demoItems, true, by decide +kernel, ?_, ?_⟩
  · intro i hi
    simp only [demoItems, List.mem_cons, List.not_mem_nil, or_false] at hi
    rcases hi with rfl | rfl
    · exact ⟨⟨by decide, by decide, by decide, by decide⟩, by decide,
        ⟨by decide, by decide, by decide, by decide⟩, by decide⟩
    · exact ⟨⟨by decide, by decide, by decide, by decide⟩, by decide⟩
  · intro c
    simp [demoItems, Item.Has]

example : numPossibleCPUs (fileOf "0-11,2047\n") = some 2048 :=
  possible_exact demo_lists (.inr rfl) (fun c h => by omega)

/-- Two nodes with two CPUs each. -/
def node0 : File := fileOf "0-1\n"
def node1 : File := fileOf "2-3\n"
def four : File := fileOf "0-3\n"

theorem range_lists (a b : Char) (va vb : Nat) (ha : Writes [a] va) (hb : Writes [b] vb)
    (h1 : va < 2048) (h2 : vb < 2048) (k : Nat → Option Nat) (hk : ∀ n, k n ≠ none) :
    Lists ⟨[a, '-', b, '\n'], k⟩ (fun c => va ≤ c ∧ c ≤ vb) := by
  refine ⟨hk, [.range [a] va [b] vb], true, rfl, ?_, ?_⟩
  · intro i hi
    rw [List.mem_singleton] at hi
    subst hi
    exact ⟨ha, h1, hb, h2⟩
  · intro c
    simp [Item.Has]

theorem writes_digit (d : Char) (v : Nat) (h : '0' ≤ d ∧ d ≤ '9') (hv : v = d.toNat - 48) :
    Writes [d] v :=
  ⟨by simp, by simp, by simpa using h, by simp [hv]⟩

theorem node0_lists : Lists node0 (fun c => 0 ≤ c ∧ c ≤ 1) :=
  range_lists '0' '1' 0 1 (writes_digit _ _ (by decide) (by decide))
    (writes_digit _ _ (by decide) (by decide)) (by omega) (by omega) _ (fun _ h => by cases h)
theorem node1_lists : Lists node1 (fun c => 2 ≤ c ∧ c ≤ 3) :=
  range_lists '2' '3' 2 3 (writes_digit _ _ (by decide) (by decide))
    (writes_digit _ _ (by decide) (by decide)) (by omega) (by omega) _ (fun _ h => by cases h)
theorem four_lists : Lists four (fun c => 0 ≤ c ∧ c ≤ 3) :=
  range_lists '0' '3' 0 3 (writes_digit _ _ (by decide) (by decide))
    (writes_digit _ _ (by decide) (by decide)) (by omega) (by omega) _ (fun _ h => by cases h)

def twoNodes : Nat → Opened
  | 0 => .file node0
  | 1 => .file node1
  | _ => .missing

/-- The hypotheses of `numa_exact` are met. -/
theorem twoNodes_ok : Nodes twoNodes 2 (fun n c => 2 * n ≤ c ∧ c ≤ 2 * n + 1) where
  here := by
    intro n hn
    match n, hn with
    | 0, _ => exact ⟨node0, rfl, node0_lists⟩
    | 1, _ => exact ⟨node1, rfl, node1_lists⟩
  last := rfl
  disjoint := by
    intro n n' c h1 h2 h3 h4
    omega

example : ∃ t, numaInit 2 100 true false (some ['1']) four twoNodes 3 = some t ∧
    t.numaAware = true ∧ t.currentScaled 3 = 100 ∧ t.currentScaled 1 = 0 := by
  obtain ⟨t, h1, -, -, h2, -, -, -, -, h3, h4⟩ := numa_exact (P := 2) (scale := 100) (dflt := false)
    (env := some ['1']) (enabled := true) (mode := .advisory) (fuel := 3) (by decide) four_lists
    (m := 3) (by decide) (fun c h => h.2) twoNodes_ok (by omega) (by omega)
  have ha : t.numaAware = true := h3.2 ⟨rfl, 1, 2, by decide⟩
  refine ⟨t, h1, ha, ?_, ?_⟩
  · rw [h4, ha]; exact h2 1 3 (by decide) (by decide)
  · rw [h4, ha]; exact h2 0 1 (by decide) (by decide)

/-- Two caches: CPUs 0 and 1, and CPUs 2 and 3. -/
def pairShare (c d : Nat) : Bool := decide (c < 4) && decide (d < 4) && decide (c / 2 = d / 2)

theorem pair_sharing : Sharing 4 pairShare where
  refl := by intro c h; simp [pairShare, h]
  symm := by intro c d; simp only [pairShare, Bool.and_eq_true, decide_eq_true_eq]; omega
  trans := by intro c d e; simp only [pairShare, Bool.and_eq_true, decide_eq_true_eq]; omega
  dom := by intro c d; simp only [pairShare, Bool.and_eq_true, decide_eq_true_eq]; omega

def twoCaches (c : Nat) : Opened := if c < 2 then .file node0 else if c < 4 then .file node1 else .missing

theorem twoCaches_ok : ∀ c, c ≤ 3 →
    ∃ f, twoCaches c = .file f ∧ Lists f (fun d => pairShare c d = true) := by
  intro c hc
  by_cases h : c < 2
  · refine ⟨node0, by simp [twoCaches, h], ?_⟩
    have : (fun d => pairShare c d = true) = (fun d => 0 ≤ d ∧ d ≤ 1) := by
      funext d
      simp only [pairShare, Bool.and_eq_true, decide_eq_true_eq]
      apply propext; omega
    rw [this]; exact node0_lists
  · refine ⟨node1, by simp [twoCaches, h]; omega, ?_⟩
    have : (fun d => pairShare c d = true) = (fun d => 2 ≤ d ∧ d ≤ 3) := by
      funext d
      simp only [pairShare, Bool.and_eq_true, decide_eq_true_eq]
      apply propext; omega
    rw [this]; exact node1_lists

/-- The hypotheses of `cache_same` are met. -/
example : ∃ t, cacheInit four twoCaches = some t ∧ t.l3 0 = t.l3 1 ∧ t.l3 1 ≠ t.l3 2 := by
  obtain ⟨t, h1, -, h2⟩ := cache_same four_lists (m := 3) (by decide) (fun c h => h.2) pair_sharing
    twoCaches_ok (by decide)
  exact ⟨t, h1, (h2 0 1 (by omega) (by omega)).2 rfl,
    fun h => by have := (h2 1 2 (by omega) (by omega)).1 h; cases this⟩

/-! ### What the hypotheses exclude -/

/-- Not every malformed list is refused: a range with no end is taken for no CPUs at all, and of
three numbers joined by dashes the first is ignored. -/
theorem parse_malformed :
    ((parsed (fileOf "5-\n")).map fun s => (List.range 10).filter s) = some [] ∧
    ((parsed (fileOf "1-3-5\n")).map fun s => (List.range 10).filter s) = some [3, 4, 5] := by
  decide +kernel

/-- The node masks are wrong from node 31 on: its bit is sign extended over bits 32 to 63, and the
shift for the next node is undefined. -/
theorem node31_mask : shl1 31 = some (2 ^ 64 - 2 ^ 31) ∧ shl1 32 = none := by decide +kernel

/-- If no node can be found the number of nodes is 0, not the 1 it is said to be by default. -/
theorem no_nodes : (numaInit 2 100 true false none four (fun _ => .missing) 3).map (·.numNodes) =
    some 0 := by decide +kernel

/-- If a CPU is offline its list is missing, and the search stops there: the later CPUs all keep
index 0 although they do not share the first cache. -/
theorem offline_stops :
    (cacheInit four (fun c => if c = 0 then .file (fileOf "0\n") else if c = 1 then .missing
      else .file node1)).map (fun t => (t.l3Count, t.index 0, t.index 2, t.index 3)) =
    some (1, 0, 0, 0) := by decide +kernel

end Verif.Topology
