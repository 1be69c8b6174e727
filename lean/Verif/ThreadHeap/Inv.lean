import Verif.ThreadHeap.Spec
/-! The invariant of the composed heap. -/
namespace Verif.ThreadHeap
open Verif.Span (Geo Mem IsObj InObj)
open Verif.PageHeap (HP Run)
open Verif.HugeAddressMap (Rng Cov)
open Verif.TransferCache (Outside)

variable {cfg : Cfg} {z : List (Nat × Nat)} {h : Heap}

/-- The runs of tag `t` in the ledger; the first pages of the spans of class `k`. -/
def ofTag (cfg : Cfg) (t : Nat) (led : List (Owner × Run)) : List Run :=
  (led.filter fun x => decide (x.1.tag cfg = t)).map (·.2)

def ofClass (k : Nat) (led : List (Owner × Run)) : List Nat :=
  (led.filter fun x => decide (x.1 = .lent k)).map (·.2.p)

/-- `x`: objects (with class) that a step of the middle tier has handed out and the thread caches do not have yet, or the
other way round. -/
structure Inv (cfg : Cfg) (x : List (Nat × Nat)) (h : Heap) : Prop where
  tc : ThreadCache.Reach cfg.tc h.tc
  tier : ∀ k, TransferCache.Reach (cfg.geo k) (cfg.tc.batch k) (h.tier k)
  page : ∀ t, PageHeap.Reach cfg.H cfg.N cfg.mode (h.page t) (h.ob t) (h.runs t)
  mem : ∀ k, (h.tier k).x.c.w = h.mem
  objs : ∀ k o, (h.tc.objects cfg.tc).count (k, o) + x.count (k, o) = (h.tier k).held.count o
  led : ∀ t, (ofTag cfg t h.led).Perm (h.runs t)
  lent : ∀ k, (ofClass k h.led).Perm (h.tier k).x.sp
  size : ∀ k r, (Owner.fresh k, r) ∈ h.led ∨ (Owner.lent k, r) ∈ h.led → cfg.tc.Used k ∧ r.n = (cfg.geo k).numPages
  obs : ∀ t t', t ≠ t' → ∀ q, Cov (h.ob t) q → ¬ Cov (h.ob t') q
  low : ∀ t, ∀ r ∈ h.ob t, r.s ≠ 0
  wait : ∀ k, (h.wait k).length = (h.tier k).x.c.pend.length ∧ (h.wait k).Nodup
  asks : ∀ k (j : Nat) th pd, (h.wait k)[j]? = some th → (h.tier k).x.c.pend[j]? = some pd →
    h.tc.asks th = some (k, pd.got.length + pd.want)

/-! ### The ledger -/

theorem mem_ofTag {t : Nat} {led : List (Owner × Run)} {r : Run} : r ∈ ofTag cfg t led ↔ ∃ o, (o, r) ∈ led ∧ o.tag cfg = t := by
  simp only [ofTag, List.mem_map, List.mem_filter, decide_eq_true_eq]
  constructor
  · rintro ⟨⟨o, r'⟩, ⟨h1, h2⟩, rfl⟩; exact ⟨o, h1, h2⟩
  · rintro ⟨o, h1, h2⟩; exact ⟨(o, r), ⟨h1, h2⟩, rfl⟩

theorem mem_ofClass {k p : Nat} {led : List (Owner × Run)} : p ∈ ofClass k led ↔ ∃ r, (Owner.lent k, r) ∈ led ∧ r.p = p := by
  simp only [ofClass, List.mem_map, List.mem_filter, decide_eq_true_eq]
  constructor
  · rintro ⟨⟨o, r'⟩, ⟨h1, h2⟩, rfl⟩; cases h2; exact ⟨r', h1, rfl⟩
  · rintro ⟨r, h1, rfl⟩; exact ⟨(_, r), ⟨h1, rfl⟩, rfl⟩

theorem ofTag_perm {t : Nat} {a b : List (Owner × Run)} (h : a.Perm b) : (ofTag cfg t a).Perm (ofTag cfg t b) :=
  (h.filter _).map _

theorem ofClass_perm {k : Nat} {a b : List (Owner × Run)} (h : a.Perm b) : (ofClass k a).Perm (ofClass k b) :=
  (h.filter _).map _

theorem ofTag_cons {t : Nat} {o : Owner} {r : Run} {a : List (Owner × Run)} :
    ofTag cfg t ((o, r) :: a) = (if o.tag cfg = t then [r] else []) ++ ofTag cfg t a := by
  simp only [ofTag, List.filter_cons]
  split <;> simp_all

theorem ofClass_cons {k : Nat} {o : Owner} {r : Run} {a : List (Owner × Run)} :
    ofClass k ((o, r) :: a) = (if o = .lent k then [r.p] else []) ++ ofClass k a := by
  simp only [ofClass, List.filter_cons]
  split <;> simp_all

theorem pairwise_groups {α : Type} {R : α → α → Prop} (f : α → Nat) : ∀ {l : List α},
    (∀ t, (l.filter fun x => decide (f x = t)).Pairwise R) → (∀ x ∈ l, ∀ y ∈ l, f x ≠ f y → R x y) → l.Pairwise R
  | [], _, _ => .nil
  | x :: l, h1, h2 => by
    refine List.pairwise_cons.2 ⟨fun y hy => ?_, pairwise_groups f (fun t => ?_) fun a ha b hb => h2 a (.tail _ ha) b (.tail _ hb)⟩
    · by_cases he : f x = f y
      · have := h1 (f x)
        rw [List.filter_cons_of_pos (by simp)] at this
        exact (List.pairwise_cons.1 this).1 y (List.mem_filter.2 ⟨hy, by simp [he]⟩)
      · exact h2 x (.head _) y (.tail _ hy) he
    · exact (h1 t).sublist ((List.sublist_cons_self x l).filter _)

theorem Inv.cov (I : Inv cfg z h) (hc : cfg.OK) {o : Owner} {r : Run} (hr : (o, r) ∈ h.led) {p : Nat} (hp : r.Has p) :
    Cov (h.ob (o.tag cfg)) (p / cfg.N) :=
  ((PageHeap.runs_disjoint hc.N2 hc.H0 (I.page _)).2.1 r ((I.led _).mem_iff.1 (mem_ofTag.2 ⟨o, hr, rfl⟩))).2 p hp

/-- Runs that are out have no page in common, whatever their tags. -/
theorem Inv.disjoint (I : Inv cfg z h) (hc : cfg.OK) :
    h.led.Pairwise fun x y => ∀ p, x.2.Has p → ¬ y.2.Has p := by
  refine pairwise_groups (fun x => x.1.tag cfg) (fun t => ?_) ?_
  · have h1 := (PageHeap.runs_disjoint hc.N2 hc.H0 (I.page t)).1
    have h2 := ((I.led t).pairwise_iff (fun hab p hb ha => hab p ha hb)).2 h1
    exact List.pairwise_map.1 h2
  · intro x hx y hy hne p hp hq
    exact I.obs _ _ hne _ (I.cov hc hx hp) (I.cov hc hy hq)

theorem Inv.apart (I : Inv cfg z h) (hc : cfg.OK) {x y : Owner × Run} (hx : x ∈ h.led) (hy : y ∈ h.led)
    (hne : x ≠ y) {p : Nat} (hp : x.2.Has p) : ¬ y.2.Has p :=
  Verif.pairwise_forall (fun _ _ hab p hb ha => hab p ha hb) (I.disjoint hc) hx hy hne p hp

theorem Inv.page0 (I : Inv cfg z h) (hc : cfg.OK) {o : Owner} {r : Run} (hr : (o, r) ∈ h.led) {p : Nat} (hp : r.Has p) :
    p ≠ 0 := by
  rintro rfl
  obtain ⟨q, hq, h1⟩ := I.cov hc hr hp
  have := I.low _ q hq
  have h2 := h1.1
  rw [Nat.zero_div] at h2
  omega

/-! ### Words and pages -/

theorem pg_has (r : Run) (a : Nat) : r.Has (pg cfg a) ↔ r.p * 2 ^ cfg.ps ≤ 2 * a ∧ 2 * a < (r.p + r.n) * 2 ^ cfg.ps := by
  have h2 : 0 < 2 ^ cfg.ps := Nat.two_pow_pos _
  unfold PageHeap.Run.Has pg
  rw [Nat.le_div_iff_mul_le h2, Nat.div_lt_iff_lt_mul h2]

/-- An object of a span of class `k` is in the pages of the span. -/
theorem obj_has (hc : cfg.OK) {k : Nat} (hk : cfg.tc.Used k) {r : Run} (hn : r.n = (cfg.geo k).numPages) {o : Nat}
    (ho : IsObj (CentralFreeList.spanAt (cfg.geo k) r.p) o) :
    r.p * 2 ^ cfg.ps ≤ o ∧ o + (cfg.geo k).size ≤ (r.p + r.n) * 2 ^ cfg.ps := by
  obtain ⟨g, hs⟩ := hc.geo k hk
  obtain ⟨i, hi, rfl⟩ := ho
  have hf := g.fits
  have e1 : (CentralFreeList.spanAt (cfg.geo k) r.p).start = r.p * 2 ^ cfg.ps := by
    unfold CentralFreeList.spanAt Geo.start Geo.pageSize
    show r.p * 2 ^ (cfg.geo k).pageShift = _
    rw [hs]
  have e2 : (CentralFreeList.spanAt (cfg.geo k) r.p).size = (cfg.geo k).size := rfl
  have hi' : i < (cfg.geo k).count := hi
  have e3 : (cfg.geo k).pageSize = 2 ^ cfg.ps := by unfold Geo.pageSize; rw [hs]
  rw [e1, e2]
  rw [e3] at hf
  have h1 : (i + 1) * (cfg.geo k).size ≤ (cfg.geo k).count * (cfg.geo k).size := Nat.mul_le_mul_right _ hi'
  rw [Nat.succ_mul] at h1
  rw [Nat.add_mul, hn]
  omega

theorem obj_pg (hc : cfg.OK) {k : Nat} (hk : cfg.tc.Used k) {r : Run} (hn : r.n = (cfg.geo k).numPages) {o a : Nat}
    (ho : IsObj (CentralFreeList.spanAt (cfg.geo k) r.p) o) (ha : InObj (CentralFreeList.spanAt (cfg.geo k) r.p) o a) :
    r.Has (pg cfg a) := by
  have h1 := obj_has hc hk hn ho
  have h2 : 2 * a < o + (cfg.geo k).size := ha.2
  have h3 := ha.1
  rw [pg_has]; omega

/-! ### Objects -/

theorem Used.batch {k : Nat} (hk : cfg.tc.Used k) : cfg.tc.batch k ≤ 128 := hk.2.2.2

/-- A span of the central free list of `k` is in the ledger. -/
theorem Inv.span (I : Inv cfg z h) {k p : Nat} (hp : p ∈ (h.tier k).x.sp) :
    ∃ r, (Owner.lent k, r) ∈ h.led ∧ r.p = p ∧ cfg.tc.Used k ∧ r.n = (cfg.geo k).numPages := by
  obtain ⟨r, h1, h2⟩ := mem_ofClass.1 ((I.lent k).mem_iff.2 hp)
  exact ⟨r, h1, h2, I.size k r (Or.inr h1)⟩

/-- Where an object of the middle tier is. -/
theorem Inv.held (I : Inv cfg z h) (hc : cfg.OK) {k o : Nat} (hk : cfg.tc.Used k) (ho : o ∈ (h.tier k).held) :
    ∃ r, (Owner.lent k, r) ∈ h.led ∧ r.n = (cfg.geo k).numPages ∧ IsObj (CentralFreeList.spanAt (cfg.geo k) r.p) o := by
  obtain ⟨g, -⟩ := hc.geo k hk
  have h1 := TransferCache.held_x g hk.2.2.2 (I.tier k) ho
  obtain ⟨p, hp, h2, -⟩ := (CentralFreeList.objects_disjoint g _ (TransferCache.conserved g hk.2.2.2 _ (I.tier k)).1).2.1 o
    (List.mem_append_left _ h1)
  obtain ⟨r, h3, rfl, -, h4⟩ := I.span hp
  exact ⟨r, h3, h4, h2⟩

theorem pairs_count (k k' o : Nat) (l : List Nat) : (ThreadCache.pairs k l).count (k', o) = if k' = k then l.count o else 0 := by
  unfold ThreadCache.pairs
  split
  · next h =>
    subst h
    induction l with
    | nil => rfl
    | cons a l ih => simp only [List.map_cons, List.count_cons, ih]; by_cases h : a = o <;> simp [h]
  · next h =>
    rw [List.count_eq_zero]
    intro hm
    obtain ⟨a, -, he⟩ := List.mem_map.1 hm
    cases he; exact h rfl

/-! ### Memory -/

theorem setW_self {y : TransferCache.World} {w : Mem} (h : y.x.c.w = w) : setW w y = y := by subst h; rfl

/-- Memory may change outside the objects the middle tier of the class has. -/
theorem reach_setW {k : Geo} {B : Nat} {y : TransferCache.World} (h : TransferCache.Reach k B y) {w : Mem}
    (hw : ∀ p ∈ y.x.sp, ∀ o, IsObj (CentralFreeList.spanAt k p) o → o ∉ y.held →
      ∀ a, InObj (CentralFreeList.spanAt k p) o a → w a = y.x.c.w a) : TransferCache.Reach k B (setW w y) :=
  TransferCache.Reach.step (o := ⟨none, [], none⟩) (.write w) h hw rfl

/-- A change of memory inside spans of class `k` is none of the other classes' business. -/
theorem Inv.others (I : Inv cfg z h) (hc : cfg.OK) {k : Nat} (hk : cfg.tc.Used k) {S : List Nat} {w : Mem}
    (hS : ∀ p ∈ S, ∃ r, ((Owner.lent k, r) ∈ h.led ∨ (Owner.fresh k, r) ∈ h.led) ∧ r.p = p)
    (hw : ∀ a, Outside (cfg.geo k) S a → w a = h.mem a) {x : Owner × Run} (hx : x ∈ h.led)
    (h1 : x.1 ≠ .lent k) (h2 : x.1 ≠ .fresh k) {a : Nat} (ha : x.2.Has (pg cfg a)) : w a = h.mem a := by
  refine hw a fun p hp o ho hin => ?_
  obtain ⟨r, hr, rfl⟩ := hS p hp
  have hn := (I.size k r (Or.comm.1 hr)).2
  have h3 := obj_pg hc hk hn ho hin
  rcases hr with hr | hr
  · exact I.apart hc hr hx (fun he => h1 (by rw [← he])) h3 ha
  · exact I.apart hc hr hx (fun he => h2 (by rw [← he])) h3 ha

theorem Inv.tiers (I : Inv cfg z h) (hc : cfg.OK) {k : Nat} (hk : cfg.tc.Used k) {S : List Nat} {y : TransferCache.World}
    (hS : ∀ p ∈ S, ∃ r, ((Owner.lent k, r) ∈ h.led ∨ (Owner.fresh k, r) ∈ h.led) ∧ r.p = p)
    (hw : ∀ a, Outside (cfg.geo k) S a → y.x.c.w a = h.mem a)
    (hy : TransferCache.Reach (cfg.geo k) (cfg.tc.batch k) y) (j : Nat) :
    TransferCache.Reach (cfg.geo j) (cfg.tc.batch j) (setW y.x.c.w (upd h.tier k y j)) := by
  unfold upd
  split
  · next hj => subst hj; rw [setW_self rfl]; exact hy
  · next hj =>
    refine reach_setW (I.tier j) fun p hp o ho _ a ha => ?_
    obtain ⟨r, hr, rfl, hu, hn⟩ := I.span hp
    rw [I.mem j]
    exact I.others hc hk hS hw hr (fun h => hj (by cases h; rfl)) (fun h => by cases h) (obj_pg hc hu hn ho ha)

end Verif.ThreadHeap
