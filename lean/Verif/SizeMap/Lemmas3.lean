import Verif.SizeMap.Lemmas2
/-! Helper lemmas: valid tables, `init`, `getSizeClass`. -/
namespace Verif.SizeMap

theorem isValidSizeClass_true {cfg : Cfg} {s p n : Nat} (h : isValidSizeClass cfg s p n = true) :
    0 < s ∧ s ≤ cfg.maxSize ∧ s % 8 = 0 ∧ (1024 < s → s % 128 = 0) ∧ 1 ≤ p ∧ p ≤ 32 ∧
      1 ≤ inBytes cfg p / s ∧ spanIsValidSizeClass cfg s p = true ∧
      hpaaIsValidSizeClass cfg s p = true ∧ 2 ≤ n ∧ n ≤ 128 := by
  unfold isValidSizeClass kLargeSize kLargeSizeAlignment kAlignment kMaxObjectsToMove at h
  by_cases h1 : s = 0
  · simp [h1] at h
  rw [if_neg h1] at h
  by_cases h2 : s > cfg.maxSize
  · simp [h2] at h
  rw [if_neg h2] at h
  by_cases h3 : s % (if s > 1024 then 128 else 8) ≠ 0
  · rw [if_pos h3] at h; simp at h
  rw [if_neg h3] at h
  by_cases h4 : p = 0
  · simp [h4] at h
  rw [if_neg h4] at h
  by_cases h5 : p > 32
  · simp [h5] at h
  rw [if_neg h5] at h
  by_cases h6 : inBytes cfg p / s < 1
  · rw [if_pos h6] at h; simp at h
  rw [if_neg h6] at h
  by_cases h7 : (!spanIsValidSizeClass cfg s p) = true
  · rw [if_pos h7] at h; simp at h
  rw [if_neg h7] at h
  by_cases h8 : (!hpaaIsValidSizeClass cfg s p) = true
  · rw [if_pos h8] at h; simp at h
  rw [if_neg h8] at h
  by_cases h9 : n < 2
  · simp [h9] at h
  rw [if_neg h9] at h
  by_cases h10 : n > 128
  · simp [h10] at h
  have a1 := Classical.not_not.1 h3
  have h7' : spanIsValidSizeClass cfg s p = true := by simpa using h7
  have h8' : hpaaIsValidSizeClass cfg s p = true := by simpa using h8
  refine ⟨by omega, by omega, ?_, ?_, by omega, by omega, by omega, h7', h8', by omega, by omega⟩
  · split at a1 <;> omega
  · intro hb; rw [if_pos hb] at a1; exact a1

theorem validLoop_true {cfg : Cfg} : ∀ (rest : List Info) (p : Info),
    validLoop cfg p rest = true →
      (∀ e ∈ rest, p.size < e.size ∧
        inBytes cfg (bytesToLengthFloor cfg e.bytes) = e.bytes ∧
        isValidSizeClass cfg e.size (bytesToLengthFloor cfg e.bytes) e.numToMove = true) ∧
      rest.Pairwise (fun a b => a.size < b.size) := by
  intro rest
  induction rest with
  | nil => intro p _; simp
  | cons e rest ih =>
    intro p h
    rw [validLoop] at h
    split at h
    · simp at h
    · split at h
      · simp at h
      · split at h
        · simp at h
        · rename_i h1 h2 h3
          obtain ⟨i1, i2⟩ := ih e h
          constructor
          · intro e' he'
            rcases List.mem_cons.1 he' with rfl | hm
            · exact ⟨by omega, by simpa using h1, by simpa using h3⟩
            · have := i1 e' hm
              exact ⟨by omega, this.2⟩
          · exact List.pairwise_cons.2 ⟨fun e' he' => (i1 e' he').1, i2⟩

theorem valid_cases {cfg : Cfg} {t : List Info} (hl : t.length ≤ cfg.numBase)
    (h : validSizeClasses cfg t = true) :
    ∃ rest, t = ⟨0, 0, 0⟩ :: rest ∧ validLoop cfg ⟨0, 0, 0⟩ rest = true ∧
      (t.map (·.size))[t.length - 1]? = some cfg.maxSize := by
  unfold validSizeClasses at h
  have : (if cfg.hasExpanded && decide (t.length > cfg.numBase) then t.take cfg.numBase else t) = t := by
    rw [if_neg]; simp; intro _; omega
  rw [this] at h
  cases t with
  | nil => simp at h
  | cons e0 rest =>
    simp only at h
    split at h
    · simp at h
    · split at h
      · simp at h
      · rename_i h1 h2
        obtain ⟨s, b, n⟩ := e0
        simp at h1
        obtain ⟨rfl, rfl, rfl⟩ := h1
        refine ⟨rest, rfl, by simpa using h2, ?_⟩
        have h := of_decide_eq_true h
        rw [List.getElem?_map, ← h, List.getLast_eq_getElem]
        simp

theorem goodSizes_of_valid {cfg : Cfg} {t : List Info} (hpos : 0 < cfg.maxSize)
    (hl : t.length ≤ cfg.numBase) (h : validSizeClasses cfg t = true) :
    GoodSizes cfg (t.map (·.size)) := by
  obtain ⟨rest, rfl, hv, hlast⟩ := valid_cases hl h
  obtain ⟨hall, hpw⟩ := validLoop_true rest _ hv
  have hpw' : ((⟨0, 0, 0⟩ : Info) :: rest).Pairwise (fun a b => a.size < b.size) :=
    List.pairwise_cons.2 ⟨fun e he => (hall e he).1, hpw⟩
  constructor
  · cases rest with
    | nil => simp at hlast; omega
    | cons => simp
  · simp
  · intro i j x y hij hx hy
    rw [List.getElem?_map] at hx hy
    obtain ⟨a, ha, rfl⟩ := Option.map_eq_some_iff.1 hx
    obtain ⟨b, hb, rfl⟩ := Option.map_eq_some_iff.1 hy
    obtain ⟨hi, rfl⟩ := List.getElem?_eq_some_iff.1 ha
    obtain ⟨hj, rfl⟩ := List.getElem?_eq_some_iff.1 hb
    exact List.pairwise_iff_getElem.1 hpw' i j hi hj hij
  · intro i x hx
    rw [List.getElem?_map] at hx
    obtain ⟨a, ha, rfl⟩ := Option.map_eq_some_iff.1 hx
    have hm := List.mem_of_getElem? ha
    rcases List.mem_cons.1 hm with rfl | hm
    · exact ⟨by simp, by simp⟩
    · have := isValidSizeClass_true (hall a hm).2.2
      exact ⟨this.2.2.1, this.2.2.2.1⟩
  · simpa using hlast

/-- Numerical facts about the shipped configurations. -/
structure CfgOk (cfg : Cfg) : Prop where
  big : 1024 < cfg.maxSize
  sec : cfg.secParts = 1 ∨ cfg.secParts = 2
  numa : 1 ≤ cfg.numaParts
  excl : cfg.secParts = 1 ∨ cfg.numaParts = 1
  nb : 2 ≤ cfg.numBase
  dvd : cfg.pageSize ∣ cfg.maxSize
  page8 : 8 ∣ cfg.pageSize

theorem Cfg.Shipped.ok {cfg : Cfg} (h : cfg.Shipped) : CfgOk cfg := by
  obtain ⟨hb, hp, _⟩ := h
  simp [baseConfigs] at hb
  simp at hp
  refine ⟨by omega, by omega, by omega, by omega, by omega, ?_, ?_⟩
  all_goals
    unfold Cfg.pageSize
    rcases hb with ⟨h1, -, -, h2⟩ | ⟨h1, -, -, h2⟩ | ⟨h1, -, -, h2⟩ | ⟨h1, -, -, h2⟩ <;>
      rw [h1] <;> (try rw [h2]) <;> decide

theorem numGroups {cfg : Cfg} (hnb : 0 < cfg.numBase) :
    cfg.numClasses / cfg.numBase = cfg.normalParts + (if cfg.hasExpanded then 1 else 0) := by
  unfold Cfg.numClasses Cfg.expandedStart
  split
  · rw [Nat.mul_add_div hnb, Nat.div_self hnb]
  · rw [Nat.add_zero, Nat.mul_div_cancel_left _ hnb, Nat.add_zero]

structure MapsOk (cfg : Cfg) (t : List Info) (m : Maps) : Prop where
  arr : ArrayOk cfg (t.map (·.size)) m.classArray
  sz : m.classToSize = setRegister cfg (t.map (·.size))
  pg : m.classToPages = setRegister cfg (t.map fun e => bytesToLengthFloor cfg e.bytes)
  mv : m.numToMove = setRegister cfg (t.map (·.numToMove))

theorem init_ok {cfg : Cfg} {t : List Info} (ok : CfgOk cfg) (hl : t.length ≤ cfg.numBase)
    (h : validSizeClasses cfg t = true) (leftover : Nat) :
    ∃ m, init cfg t leftover = .ok m ∧ MapsOk cfg t m := by
  have hbig := ok.big
  have g := goodSizes_of_valid (by omega) hl h
  obtain ⟨a, ha, hok⟩ := initArray_ok g ok.big ok.sec ok.numa (by simpa using hl)
    (sizes := setRegister cfg (t.map (·.size)))
    (fun b c hb hc => setRegister_get _ (by simpa using hl) hb hc) leftover
  refine ⟨⟨_, _, _, a⟩, ?_, ⟨hok, rfl, rfl, rfl⟩⟩
  unfold init
  rw [if_neg (by omega), h]
  simp only [Bool.not_true, Bool.false_eq_true, if_false, ha]
  rfl

theorem init_inv {cfg : Cfg} {t : List Info} (ok : CfgOk cfg) {leftover : Nat} {m : Maps}
    (h : init cfg t leftover = .ok m) :
    t.length ≤ cfg.numBase ∧ validSizeClasses cfg t = true ∧ MapsOk cfg t m := by
  have hl : t.length ≤ cfg.numBase := by
    apply Classical.byContradiction
    intro hn
    unfold init at h
    rw [if_pos (by omega)] at h
    simp at h
  have hv : validSizeClasses cfg t = true := by
    cases hv : validSizeClasses cfg t with
    | true => rfl
    | false =>
      unfold init at h
      rw [if_neg (by omega), hv] at h
      simp at h
  obtain ⟨m', h1, h2⟩ := init_ok ok hl hv leftover
  rw [h1] at h
  injection h with h
  subst h
  exact ⟨hl, hv, h2⟩

/-- The smallest class (by number) that satisfies a monotone-free predicate. -/
theorem least_from (P : Nat → Prop) (c hi : Nat) (hci : c ≤ hi) (hP : P hi) :
    ∃ d, c ≤ d ∧ d ≤ hi ∧ P d ∧ ∀ e, c ≤ e → e < d → ¬ P e := by
  induction hn : hi - c generalizing c with
  | zero => exact ⟨hi, hci, Nat.le_refl _, hP, by intro e h1 h2; omega⟩
  | succ n ih =>
    by_cases hc : P c
    · exact ⟨c, Nat.le_refl _, hci, hc, by intro e h1 h2; omega⟩
    · obtain ⟨d, h1, h2, h3, h4⟩ := ih (c + 1) (by omega) (by omega)
      refine ⟨d, by omega, h2, h3, ?_⟩
      intro e he1 he2
      by_cases hec : e = c
      · subst hec; exact hc
      · exact h4 e (by omega) he2

theorem alignLoop_eq (sizes : List Nat) (align : Nat) :
    ∀ (n c d : Nat), d - c = n → c ≤ d → (∀ e, c ≤ e → e < d → ∃ s, sizes[e]? = some s ∧ s % align ≠ 0) →
      (∃ s, sizes[d]? = some s ∧ s % align = 0) → alignLoop sizes align c = some d := by
  intro n
  induction n with
  | zero =>
    intro c d hn hcd _ ⟨s, hs, hm⟩
    have : c = d := by omega
    subst this
    rw [alignLoop]
    split
    · rename_i h; rw [hs] at h; simp at h
    · rename_i h; rw [hs] at h; simp at h; subst h; simp [hm]
  | succ n ih =>
    intro c d hn hcd hno hd
    obtain ⟨s, hs, hm⟩ := hno c (Nat.le_refl _) (by omega)
    rw [alignLoop]
    split
    · rename_i h; rw [hs] at h; simp at h
    · rename_i h; rw [hs] at h; simp at h; subst h
      rw [if_neg hm]
      exact ih (c + 1) d (by omega) (by omega) (fun e h1 h2 => hno e (by omega) h2) hd

theorem cov_of_size {cfg : Cfg} {ts : List Nat} (g : GoodSizes cfg ts) {size : Nat}
    (h : size ≤ cfg.maxSize) :
    ∃ c x, 1 ≤ c ∧ ts[c]? = some x ∧ size ≤ x ∧
      (∀ c' x', 1 ≤ c' → c' < c → ts[c']? = some x' → x' < size) ∧ Cov ts (idxN size) c := by
  have htwo := g.two
  obtain ⟨d, h1, h2, ⟨x, hx, hsx⟩, h4⟩ := least_from (fun c => ∃ x, ts[c]? = some x ∧ size ≤ x)
    1 (ts.length - 1) (by omega) ⟨_, g.last, h⟩
  have hlt : ∀ c' x', 1 ≤ c' → c' < d → ts[c']? = some x' → x' < size := by
    intro c' x' hc1 hc2 hc3
    apply Classical.byContradiction
    intro hn
    exact h4 c' hc1 hc2 ⟨x', hc3, by omega⟩
  refine ⟨d, x, h1, hx, hsx, hlt, h1, ?_⟩
  obtain ⟨y, hy⟩ : ∃ y, ts[d - 1]? = some y := ⟨ts[d - 1]'(by omega), by simp⟩
  refine ⟨y, x, hy, hx, ?_, idxN_mono hsx⟩
  by_cases hd : d = 1
  · exact Or.inl hd
  · right
    have := hlt (d - 1) y (by omega) (by omega) hy
    apply Classical.byContradiction
    intro hn
    have := (idxN_le_iff (s := size) (g.bdry _ _ hy)).1 (by omega)
    omega

theorem groupStart_mul {cfg : Cfg} (ok : CfgOk cfg) {p : Policy} (pv : p.Valid cfg) (size : Nat) :
    ∃ b, b < cfg.numClasses / cfg.numBase ∧ groupStart cfg p size = b * cfg.numBase := by
  have hnb := ok.nb
  have hng := numGroups (cfg := cfg) (by omega)
  have hnorm1 : 1 * cfg.secParts ≤ cfg.normalParts := Nat.mul_le_mul_right _ ok.numa
  have hnorm2 : cfg.numaParts * 1 ≤ cfg.normalParts :=
    Nat.mul_le_mul_left _ (by rcases ok.sec with h | h <;> omega)
  have hhot : ∀ isNew sec, ∃ b, b < cfg.secParts ∧ hotStart cfg isNew sec = b * cfg.numBase := by
    intro isNew sec
    unfold hotStart
    split
    · rename_i h
      have : cfg.secParts > 1 := by simp at h; exact h.1.1
      exact ⟨1, this, by omega⟩
    · exact ⟨0, by rcases ok.sec with h | h <;> omega, by omega⟩
  unfold groupStart
  split
  · rename_i hc
    have hex : cfg.hasExpanded = true := by simp at hc; exact hc.1
    rw [if_pos hex] at hng
    split
    · obtain ⟨b, h1, h2⟩ := hhot true 1
      exact ⟨b, by omega, h2⟩
    · split
      · obtain ⟨b, h1, h2⟩ := hhot true 0
        exact ⟨b, by omega, h2⟩
      · exact ⟨cfg.normalParts, by omega, by unfold Cfg.expandedStart; rw [Nat.mul_comm]⟩
  · obtain ⟨b, h1, h2⟩ := hhot p.isNew p.secPart
    have := pv.numa
    refine ⟨b + p.numaPart, ?_, by rw [h2, Nat.add_mul]⟩
    rcases ok.excl with h | h
    · omega
    · omega

theorem getSizeClass_small {cfg : Cfg} {t : List Info} {m : Maps} (ok : CfgOk cfg)
    (hl : t.length ≤ cfg.numBase) (hv : validSizeClasses cfg t = true) (mo : MapsOk cfg t m)
    {p : Policy} (pv : p.Valid cfg) (hp : p.align ≤ cfg.pageSize) {size : Nat}
    (hs : size ≤ cfg.maxSize) :
    ∃ b c e, getSizeClass cfg m p size = some (.small (b * cfg.numBase + c)) ∧
      b * cfg.numBase = groupStart cfg p size ∧ b < cfg.numClasses / cfg.numBase ∧ 1 ≤ c ∧
      t[c]? = some e ∧ size ≤ e.size ∧ p.align ∣ e.size ∧
      (∀ c' e', 1 ≤ c' → c' < c → t[c']? = some e' → ¬(size ≤ e'.size ∧ p.align ∣ e'.size)) := by
  have hbig := ok.big
  have g := goodSizes_of_valid (by omega) hl hv
  obtain ⟨b, hb1, hb2⟩ := groupStart_mul ok pv size
  obtain ⟨c, x, hc1, hcx, hsx, hclt, hcov⟩ := cov_of_size g hs
  have hidx := classIndexMaybe_some (cfg := cfg) hs
  -- the table lookup
  have hlook : lookupClass cfg m p (idxN size) = some (b * cfg.numBase + c) := by
    unfold lookupClass
    rw [← hb2]
    unfold groupStart
    by_cases hcold : (cfg.hasExpanded && p.isCold) = true
    · rw [if_pos hcold, if_pos hcold]
      have hex : cfg.hasExpanded = true := by simp at hcold; exact hcold.1
      have := mo.arr.cold hex p.secPart pv.sec
      by_cases hfull : (decide (p.secPart = 1) && cfg.modeFull) = true
      · rw [if_pos hfull] at this ⊢
        have := this _ _ hcov
        rw [← this, Nat.mul_comm, Nat.add_comm]
      · rw [if_neg hfull] at this ⊢
        have := this _ _ hcov
        have hi0 : idxN size = 0 ↔ size = 0 := by
          unfold idxN; split <;> omega
        simp only [hi0] at this
        rw [← this, Nat.mul_comm, Nat.add_comm]
    · rw [if_neg hcold, if_neg hcold]
      have := mo.arr.hot p.isNew p.secPart pv.sec _ _ hcov
      rw [Nat.mul_comm, Nat.add_comm] at this
      rw [Nat.mul_comm _ cfg.classArraySize, Nat.add_comm (idxN size),
        Nat.mul_comm cfg.classArraySize, Nat.add_comm _ (idxN size), this]
      simp
      omega
  have hsize : ∀ d e, t[d]? = some e → m.classToSize[b * cfg.numBase + d]? = some e.size := by
    intro d e he
    have := (List.getElem?_eq_some_iff.1 he).1
    rw [mo.sz, setRegister_get _ (by simpa using hl) hb1 (by simpa using this), List.getElem?_map,
      he]
    rfl
  obtain ⟨e, he, rfl⟩ : ∃ e, t[c]? = some e ∧ e.size = x := by
    rw [List.getElem?_map] at hcx
    obtain ⟨a, ha, hx⟩ := Option.map_eq_some_iff.1 hcx
    exact ⟨a, ha, hx⟩
  have hts : ∀ (d : Nat) (e : Info), t[d]? = some e → (t.map (·.size))[d]? = some e.size := by
    intro d e he; rw [List.getElem?_map, he]; rfl
  unfold getSizeClass
  rw [if_neg (by omega), hidx]
  simp only [hlook]
  by_cases hconst : (p.constAlign && decide (p.align ≤ kAlignment)) = true
  · rw [if_pos hconst]
    have hal : p.align ≤ 8 := by
      rw [Bool.and_eq_true] at hconst; exact of_decide_eq_true hconst.2
    obtain ⟨k, hk⟩ := pv.pow2
    have hal8 : p.align ∣ 8 := by
      have hk3 : k ≤ 3 := by
        apply Classical.byContradiction
        intro hn
        have : 2 ^ 4 ≤ 2 ^ k := Nat.pow_le_pow_right (by omega) (by omega)
        omega
      rw [hk, show (8 : Nat) = 2 ^ 3 from rfl]
      exact Nat.pow_dvd_pow 2 hk3
    refine ⟨b, c, e, rfl, hb2.symm, hb1, hc1, he, hsx, ?_, ?_⟩
    · exact Nat.dvd_trans hal8 (Nat.dvd_of_mod_eq_zero (g.bdry c _ (hts c e he)).1)
    · intro c' e' h1 h2 h3 ⟨h4, _⟩
      have := hclt c' e'.size h1 h2 (hts c' e' h3)
      omega
  · rw [if_neg hconst]
    -- the last class is a multiple of the alignment
    have hlast := g.last
    simp only [List.length_map] at hlast
    obtain ⟨el, hel, helm⟩ : ∃ e, t[t.length - 1]? = some e ∧ e.size = cfg.maxSize := by
      rw [List.getElem?_map] at hlast
      obtain ⟨a, ha, hx⟩ := Option.map_eq_some_iff.1 hlast
      exact ⟨a, ha, hx⟩
    have hdvd : p.align ∣ cfg.maxSize := by
      obtain ⟨k, hk⟩ := pv.pow2
      refine Nat.dvd_trans ?_ ok.dvd
      unfold Cfg.pageSize at hp ⊢
      rw [hk] at hp ⊢
      exact Nat.pow_dvd_pow 2 ((Nat.pow_le_pow_iff_right (by omega)).1 hp)
    have hcl := (List.getElem?_eq_some_iff.1 he).1
    obtain ⟨d, d1, d2, ⟨ed, hd, hdd⟩, dmin⟩ := least_from
      (fun d => ∃ e, t[d]? = some e ∧ e.size % p.align = 0) c (t.length - 1) (by omega)
      ⟨el, hel, by rw [helm]; exact Nat.mod_eq_zero_of_dvd hdvd⟩
    have hloop : alignLoop m.classToSize p.align (b * cfg.numBase + c) =
        some (b * cfg.numBase + d) := by
      apply alignLoop_eq _ _ (d - c) _ _ (by omega) (by omega)
      · intro f h1 h2
        obtain ⟨ef, hef⟩ : ∃ ef, t[f - b * cfg.numBase]? = some ef :=
          ⟨t[f - b * cfg.numBase]'(by omega), by simp⟩
        refine ⟨ef.size, ?_, ?_⟩
        · rw [← hsize _ _ hef]; congr 1; omega
        · intro hm
          exact dmin (f - b * cfg.numBase) (by omega) (by omega) ⟨ef, hef, hm⟩
      · exact ⟨ed.size, hsize d ed hd, hdd⟩
    rw [hloop]
    have hmono : e.size ≤ ed.size := by
      by_cases hcd : c = d
      · subst hcd; rw [he] at hd; injection hd with hd; subst hd; exact Nat.le_refl _
      · have := g.incr c d _ _ (by omega) (hts c e he) (hts d ed hd); omega
    refine ⟨b, d, ed, rfl, hb2.symm, hb1, by omega, hd, by omega, Nat.dvd_of_mod_eq_zero hdd, ?_⟩
    intro c' e' h1 h2 h3 ⟨h4, h5⟩
    by_cases hcc : c' < c
    · have := hclt c' e'.size h1 hcc (hts c' e' h3); omega
    · exact dmin c' (by omega) h2 ⟨e', h3, Nat.mod_eq_zero_of_dvd h5⟩

theorem getSizeClass_large {cfg : Cfg} {m : Maps} (ok : CfgOk cfg) {p : Policy} {size : Nat}
    (h : cfg.pageSize < p.align ∨ cfg.maxSize < size) :
    getSizeClass cfg m p size = some .large := by
  have := ok.big
  unfold getSizeClass
  by_cases hp : p.align > cfg.pageSize
  · rw [if_pos hp]
  · rw [if_neg hp, classIndexMaybe_none (by omega) (by omega)]

end Verif.SizeMap
