import Verif.ThreadHeap.Inv
/-! Every event keeps the invariant, and the contents of what is in use. -/
namespace Verif.ThreadHeap
open Verif.Span (Geo Mem IsObj InObj)
open Verif.PageHeap (HP Run)
open Verif.HugeAddressMap (Rng Cov)
open Verif.TransferCache (Outside)

variable {cfg : Cfg} {z : List (Nat × Nat)} {h : Heap}

/-- Contents of objects the middle tier has handed out, and of users' runs of pages. -/
def Kept (cfg : Cfg) (h h' : Heap) : Prop :=
  (∀ k o, cfg.tc.Used k → o ∈ (h.tier k).held → o ∈ (h'.tier k).held → ∀ a, o ≤ 2 * a ∧ 2 * a < o + (cfg.geo k).size →
    h'.mem a = h.mem a) ∧
  ∀ t r, (Owner.big t, r) ∈ h.led → (Owner.big t, r) ∈ h'.led → ∀ a, r.Has (pg cfg a) → h'.mem a = h.mem a

theorem Kept.of_mem {h h' : Heap} (hm : h'.mem = h.mem) : Kept cfg h h' :=
  ⟨fun _ _ _ _ _ a _ => by rw [hm], fun _ _ _ _ a _ => by rw [hm]⟩

/-! ### The per-thread caches -/

theorem Inv.tcStep (I : Inv cfg [] h) (hc : cfg.OK) {e : ThreadCache.Ev} (hp : ThreadCache.Pre cfg.tc h.tc e)
    (he : ∀ j l, e ≠ .fetched j l) {c : ThreadCache.W} {o : ThreadCache.Out} (hs : ThreadCache.step cfg.tc h.tc e = some (c, o)) :
    Inv cfg o.leaves { h with tc := c } := by
  have hcons := ThreadCache.conserved cfg.tc hc.tc hc.kMin h.tc I.tc e hp c o hs
  have hent : e.enters h.tc = [] := by
    cases e <;> first | rfl | exact absurd rfl (he _ _)
  rw [hent, List.append_nil] at hcons
  exact { I with
    tc := .step I.tc hp hs
    objs := fun k o' => by
      have := hcons.count_eq (k, o')
      rw [List.count_append] at this
      have h2 := I.objs k o'
      simp only [List.count_nil, Nat.add_zero] at h2
      show (c.objects cfg.tc).count (k, o') + o.leaves.count (k, o') = _
      rw [this, h2]
    asks := fun k j th pd h1 h2 => ThreadCache.waits hp hs (I.asks k j th pd h1 h2) fun l => he _ _ }

theorem Inv.deliver (I : Inv cfg (ThreadCache.pairs k l) h) (hc : cfg.OK) {th n : Nat}
    (ha : h.tc.asks th = some (k, n)) (hl : l.length ≤ n) (hw : th ∉ h.wait k) :
    ∃ c out, h.deliver cfg th l = some ({ h with tc := c }, .tc out) ∧ Inv cfg [] { h with tc := c } ∧
      c.user.Perm (out.returned ++ h.tc.user) := by
  obtain ⟨hu, -, -⟩ := ThreadCache.asks_ok hc.tc hc.kMin I.tc ha
  have hnd := List.nodup_iff_count.1 (TransferCache.held_nodup (hc.geo k hu).1 hu.2.2.2 (I.tier k))
  have hle : ∀ o, (h.tc.objects cfg.tc).count (k, o) + l.count o ≤ 1 := by
    intro o
    have h1 := I.objs k o
    rw [pairs_count, if_pos rfl] at h1
    have := hnd o
    omega
  obtain ⟨hp, c, out, hs, hlv, htb, hth, hent⟩ := ThreadCache.fetched_step hc.tc hc.kMin I.tc ha hl
    (List.nodup_iff_count.2 fun o => by have := hle o; omega)
    (fun o ho hm => by
      have := hle o
      have h1 := List.count_pos_iff.2 ho
      have h2 := List.count_pos_iff.2 hm
      omega)
  have hcons := ThreadCache.conserved cfg.tc hc.tc hc.kMin h.tc I.tc _ hp c out hs
  rw [hent, hlv, List.append_nil] at hcons
  have hus := ThreadCache.user_perm hp hs
  refine ⟨c, out, by unfold Heap.deliver; rw [hs]; rfl, ?_, hus⟩
  exact { I with
    tc := .step I.tc hp hs
    objs := fun k' o => by
      have h1 := hcons.count_eq (k', o)
      rw [List.count_append] at h1
      have h2 := I.objs k' o
      simp only [List.count_nil]
      show (c.objects cfg.tc).count (k', o) + 0 = (h.tier k').held.count o
      omega
    asks := fun k' j th' pd h1 h2 => by
      have h3 := I.asks k' j th' pd h1 h2
      have hne : th' ≠ th := by
        rintro rfl
        rw [ha] at h3; cases h3
        exact hw (List.mem_of_getElem? h1)
      exact (hth th' hne).trans h3 }

/-! ### The middle tier -/

theorem retire_nil (k : Nat) (led : List (Owner × Run)) : led.map (retire k []) = led := by
  rw [show retire k [] = id from funext fun x => by simp [retire]]
  exact List.map_id led

theorem upd_same {α : Type} (f : Nat → α) (i : Nat) (v : α) : upd f i v i = v := by simp [upd]
theorem upd_ne {α : Type} (f : Nat → α) {i j : Nat} (v : α) (hj : j ≠ i) : upd f i v j = f j := by simp [upd, hj]

/-- A step that leaves the central free list as it is. -/
theorem Inv.insert (I : Inv cfg (ThreadCache.pairs k l) h) (hc : cfg.OK) (hk : cfg.tc.Used k) {i : Nat} {hint : Bool}
    (hi : i < (h.tier k).t.length) (h0 : l ≠ []) (h1 : l.length ≤ ThreadCache.kMaxObjectsToMove) :
    ∃ h' o, h.onTier cfg k (.insert i l hint) = some (h', o) ∧ Inv cfg [] h' ∧ h'.mem = h.mem ∧ h'.tc = h.tc ∧
      h'.led = h.led := by
  obtain ⟨g, -⟩ := hc.geo k hk
  have hle : ∀ o, l.count o ≤ (h.tier k).held.count o := by
    intro o
    have := I.objs k o
    rw [pairs_count, if_pos rfl] at this
    omega
  have hnd := List.nodup_iff_count.1 (TransferCache.held_nodup g hk.2.2.2 (I.tier k))
  have hp : TransferCache.Pre (cfg.geo k) (h.tier k) (.insert i l hint) :=
    ⟨hi, h0, h1, List.nodup_iff_count.2 fun o => Nat.le_trans (hle o) (hnd o),
      fun o ho => List.count_pos_iff.1 (Nat.lt_of_lt_of_le (List.count_pos_iff.2 ho) (hle o))⟩
  obtain ⟨y, hs, hx, hcount⟩ := TransferCache.tier_insert g hk.2.2.2 (I.tier k) hp
  have hw : y.x.c.w = h.mem := by rw [hx]; exact I.mem k
  have hr := I.tiers hc hk (S := []) (y := y) (fun _ hq => by cases hq) (fun a _ => by rw [hw]) (.step _ (I.tier k) hp hs)
  refine ⟨h.putTier k y [], _, by unfold Heap.onTier; rw [hs]; rfl, ?_, hw, rfl, retire_nil k h.led⟩
  have hxj : ∀ j, (upd h.tier k y j).x = (h.tier j).x := by
    intro j; unfold upd; split
    · next hj => rw [hx, hj]
    · rfl
  exact
    { tc := I.tc
      tier := hr
      page := I.page
      mem := fun _ => rfl
      objs := fun k' o => by
        show (h.tc.objects cfg.tc).count (k', o) + 0 = (upd h.tier k y k').held.count o
        have h2 := I.objs k' o
        rw [pairs_count] at h2
        unfold upd
        split
        · next hj => subst hj; rw [if_pos rfl] at h2; have := hcount o; omega
        · next hj => rw [if_neg hj] at h2; omega
      led := fun t => by show (ofTag cfg t (h.led.map (retire k []))).Perm _; rw [retire_nil]; exact I.led t
      lent := fun j => by
        show (ofClass j (h.led.map (retire k []))).Perm (upd h.tier k y j).x.sp
        rw [retire_nil, hxj]; exact I.lent j
      size := fun k' r hm => I.size k' r (by
        change (_, r) ∈ h.led.map (retire k []) ∨ (_, r) ∈ h.led.map (retire k []) at hm
        rwa [retire_nil] at hm)
      obs := I.obs
      low := I.low
      wait := fun j => by
        show _ = (upd h.tier k y j).x.c.pend.length ∧ _
        rw [hxj]; exact I.wait j
      asks := fun k' j th pd h1 h2 => by
        refine I.asks k' j th pd h1 ?_
        rw [← hxj k']; exact h2 }

/-- `RemoveRange`. -/
theorem Inv.remove (I : Inv cfg [] h) (hc : cfg.OK) (hk : cfg.tc.Used k) {i n th : Nat} {hint hint0 : Bool}
    (ha : h.tc.asks th = some (k, n)) (hw : th ∉ h.wait k)
    (hi : i < (h.tier k).t.length) :
    ∃ h' o, h.onTier cfg k (.remove i n hint hint0) = some (h', o) ∧ h'.mem = h.mem ∧ h'.tc = h.tc ∧ h'.wait = h.wait ∧
      h'.led = h.led ∧
      ((∃ l, o.got = some l ∧ l.length ≤ n ∧ Inv cfg (ThreadCache.pairs k l) h') ∨
       (o.got = none ∧ Inv cfg [] { h' with wait := upd h.wait k (th :: h.wait k) })) := by
  obtain ⟨g, -⟩ := hc.geo k hk
  obtain ⟨-, hn0, hn1⟩ := ThreadCache.asks_ok hc.tc hc.kMin I.tc ha
  have hp : TransferCache.Pre (cfg.geo k) (h.tier k) (.remove i n hint hint0) := ⟨hi, hn0, hn1⟩
  obtain ⟨y, o, hs⟩ := TransferCache.step_defined g hk.2.2.2 _ (I.tier k) _ hp
  obtain ⟨hf, hheld, hsp, hw', hcase⟩ := TransferCache.tier_remove g hk.2.2.2 (I.tier k) hp hs
  have hmem : y.x.c.w = h.mem := by rw [hw']; exact I.mem k
  have hr := I.tiers hc hk (S := []) (y := y) (fun _ hq => by cases hq) (fun a _ => by rw [hmem]) (.step _ (I.tier k) hp hs)
  have hled : h.led.map (retire k o.freed) = h.led := by rw [hf]; exact retire_nil k h.led
  have hspj : ∀ j, (upd h.tier k y j).x.sp = (h.tier j).x.sp := by
    intro j; unfold upd; split
    · next hj => rw [hsp, hj]
    · rfl
  refine ⟨h.putTier k y o.freed, o, by unfold Heap.onTier; rw [hs]; rfl, hmem, rfl, rfl, hled, ?_⟩
  rcases hcase with ⟨l, hgot, hlen, hpd⟩ | ⟨pd, hgot, hpd, hsum⟩
  · refine Or.inl ⟨l, hgot, hlen, ?_⟩
    have hpj : ∀ j, (upd h.tier k y j).x.c.pend = (h.tier j).x.c.pend := by
      intro j; unfold upd; split
      · next hj => rw [hpd, hj]
      · rfl
    exact
      { tc := I.tc
        tier := hr
        page := I.page
        mem := fun _ => rfl
        objs := fun k' o' => by
          show (h.tc.objects cfg.tc).count (k', o') + _ = (upd h.tier k y k').held.count o'
          have h2 := I.objs k' o'
          simp only [List.count_nil] at h2
          rw [pairs_count]
          unfold upd
          split
          · next hj =>
            subst hj; rw [hheld, hgot, Option.getD_some, List.count_append]; omega
          · omega
        led := fun t => by show (ofTag cfg t (h.led.map (retire k o.freed))).Perm _; rw [hled]; exact I.led t
        lent := fun j => by
          show (ofClass j (h.led.map (retire k o.freed))).Perm (upd h.tier k y j).x.sp
          rw [hled, hspj]; exact I.lent j
        size := fun k' r hm => I.size k' r (by
          change (_, r) ∈ h.led.map (retire k o.freed) ∨ (_, r) ∈ h.led.map (retire k o.freed) at hm
          rwa [hled] at hm)
        obs := I.obs
        low := I.low
        wait := fun j => by
          show _ = (upd h.tier k y j).x.c.pend.length ∧ _
          rw [hpj]; exact I.wait j
        asks := fun k' j th pd h1 h2 => by
          refine I.asks k' j th pd h1 ?_
          rw [← hpj k']; exact h2 }
  · refine Or.inr ⟨hgot, ?_⟩
    exact
      { tc := I.tc
        tier := hr
        page := I.page
        mem := fun _ => rfl
        objs := fun k' o' => by
          show (h.tc.objects cfg.tc).count (k', o') + _ = (upd h.tier k y k').held.count o'
          have h2 := I.objs k' o'
          unfold upd
          split
          · next hj => subst hj; rw [hheld, hgot]; exact h2
          · exact h2
        led := fun t => by show (ofTag cfg t (h.led.map (retire k o.freed))).Perm _; rw [hled]; exact I.led t
        lent := fun j => by
          show (ofClass j (h.led.map (retire k o.freed))).Perm (upd h.tier k y j).x.sp
          rw [hled, hspj]; exact I.lent j
        size := fun k' r hm => I.size k' r (by
          change (_, r) ∈ h.led.map (retire k o.freed) ∨ (_, r) ∈ h.led.map (retire k o.freed) at hm
          rwa [hled] at hm)
        obs := I.obs
        low := I.low
        wait := fun j => by
          show (upd h.wait k (th :: h.wait k) j).length = (upd h.tier k y j).x.c.pend.length ∧ (upd h.wait k (th :: h.wait k) j).Nodup
          obtain ⟨w1, w2⟩ := I.wait j
          unfold upd
          split
          · next hj => subst hj; rw [hpd]; exact ⟨by simp [w1], List.nodup_cons.2 ⟨hw, w2⟩⟩
          · exact ⟨w1, w2⟩
        asks := fun k' j th' pd' h1 h2 => by
          have h1' : (upd h.wait k (th :: h.wait k) k')[j]? = some th' := h1
          have h2' : (upd h.tier k y k').x.c.pend[j]? = some pd' := h2
          by_cases hk' : k' = k
          · subst hk'
            rw [upd_same] at h1' h2'
            rw [hpd] at h2'
            cases j with
            | zero =>
              simp only [List.getElem?_cons_zero, Option.some.injEq] at h1' h2'
              subst h1' h2'
              show h.tc.asks th = _; rw [ha, hsum]
            | succ j =>
              simp only [List.getElem?_cons_succ] at h1' h2'
              exact I.asks _ j th' pd' h1' h2'
          · rw [upd_ne _ _ hk'] at h1' h2'
            exact I.asks _ j th' pd' h1' h2' }

theorem retire_tag (k : Nat) (freed : List Nat) (x : Owner × Run) :
    (retire k freed x).1.tag cfg = x.1.tag cfg ∧ (retire k freed x).2 = x.2 := by
  unfold retire
  split
  · next h => exact ⟨by rw [h.1]; rfl, rfl⟩
  · exact ⟨rfl, rfl⟩

theorem ofTag_retire (k : Nat) (freed : List Nat) (t : Nat) (led : List (Owner × Run)) :
    ofTag cfg t (led.map (retire k freed)) = ofTag cfg t led := by
  unfold ofTag
  rw [List.filter_map, List.map_map]
  have h1 : ((fun x : Owner × Run => decide (x.1.tag cfg = t)) ∘ retire k freed) = fun x => decide (x.1.tag cfg = t) := by
    funext x; simp only [Function.comp, (retire_tag (cfg := cfg) k freed x).1]
  have h2 : ((fun x : Owner × Run => x.2) ∘ retire k freed) = fun x => x.2 := by
    funext x; simp only [Function.comp, (retire_tag (cfg := cfg) k freed x).2]
  rw [h1, h2]

theorem retire_lent (k : Nat) (freed : List Nat) (j : Nat) (x : Owner × Run) :
    (retire k freed x).1 = .lent j ↔ x.1 = .lent j ∧ ¬ (j = k ∧ x.2.p ∈ freed) := by
  unfold retire
  split
  · next h =>
    constructor
    · intro h'; cases h'
    · rintro ⟨h1, h2⟩
      rw [h.1] at h1; cases h1
      exact absurd ⟨rfl, h.2⟩ h2
  · next h =>
    constructor
    · intro h'; exact ⟨h', fun ⟨h1, h2⟩ => h ⟨by rw [h', h1], h2⟩⟩
    · exact fun h' => h'.1

theorem mem_retire {k : Nat} {freed : List Nat} {w : Owner} {r : Run} {led : List (Owner × Run)}
    (h : (w, r) ∈ led.map (retire k freed)) : (w, r) ∈ led ∨ w = .dying k := by
  obtain ⟨x, hx, he⟩ := List.mem_map.1 h
  unfold retire at he
  split at he
  · right; exact (congrArg Prod.fst he).symm
  · left; rw [← he]; exact hx

theorem ofClass_retire (k : Nat) (freed : List Nat) (j : Nat) (led : List (Owner × Run)) :
    ofClass j (led.map (retire k freed)) = (ofClass j led).filter fun p => decide (¬ (j = k ∧ p ∈ freed)) := by
  unfold ofClass
  rw [List.filter_map, List.map_map, List.filter_map, List.filter_filter]
  have h2 : ((fun x : Owner × Run => x.2.p) ∘ retire k freed) = fun x => x.2.p := by
    funext x; unfold retire; simp only [Function.comp]; split <;> rfl
  rw [h2]
  congr 1
  congr 1
  funext x
  simp only [Function.comp, retire_lent k freed j x]
  rw [Bool.eq_iff_iff]
  simp only [decide_eq_true_eq, Bool.and_eq_true]
  exact And.comm

/-- `Populate` goes on. -/
theorem Inv.populate (I : Inv cfg [] h) (hc : cfg.OK) (hk : cfg.tc.Used k) {j : Nat} {run : Option Run}
    (hj : j < (h.wait k).length) (hrun : ∀ r, run = some r → (Owner.fresh k, r) ∈ h.led) :
    ∃ h' o th l n, (h.wait k)[j]? = some th ∧ h.onTier cfg k (.populate j (run.map Run.p)) = some (h', o) ∧ o.got = some l ∧
      h.tc.asks th = some (k, n) ∧ l.length ≤ n ∧ h'.tc = h.tc ∧ h'.wait = h.wait ∧ h'.led = h.led ∧
      th ∉ (h.wait k).eraseIdx j ∧
      Inv cfg (ThreadCache.pairs k l)
        { h' with wait := upd h'.wait k ((h'.wait k).eraseIdx j), led := enrol h'.led k run } ∧
      Kept cfg h { h' with wait := upd h'.wait k ((h'.wait k).eraseIdx j), led := enrol h'.led k run } := by
  obtain ⟨g, -⟩ := hc.geo k hk
  obtain ⟨w1, w2⟩ := I.wait k
  have hfr : ∀ r, run = some r → ∀ q ∈ (h.tier k).x.sp, CentralFreeList.Apart (cfg.geo k) r.p q := by
    intro r hr q hq
    have h1 := hrun r hr
    have hn := (I.size k r (Or.inl h1)).2
    obtain ⟨r', h2, rfl, -, hn'⟩ := I.span hq
    have hg : 0 < (cfg.geo k).numPages := by
      have := g.fits
      rcases Nat.eq_zero_or_pos (cfg.geo k).numPages with h0 | h0
      · rw [h0, Nat.zero_mul] at this
        have := Nat.mul_pos g.countPos g.sizePos
        omega
      · exact h0
    unfold CentralFreeList.Apart
    have hd : ∀ p, r.Has p → ¬ r'.Has p := fun p hp => I.apart hc h1 h2 (by simp) (p := p) hp
    rcases Nat.lt_or_ge (r.p + (cfg.geo k).numPages) (r'.p + 1) with h3 | h3
    · left; omega
    · rcases Nat.lt_or_ge (r'.p + (cfg.geo k).numPages) (r.p + 1) with h4 | h4
      · right; omega
      · exfalso
        by_cases h5 : r.p ≤ r'.p
        · exact hd r'.p ⟨h5, by omega⟩ ⟨Nat.le_refl _, by omega⟩
        · exact hd r.p ⟨Nat.le_refl _, by omega⟩ ⟨by omega, by omega⟩
  have hp : TransferCache.Pre (cfg.geo k) (h.tier k) (.populate j (run.map Run.p)) := by
    refine ⟨by omega, fun p hp => ?_⟩
    cases run with
    | none => cases hp
    | some r => cases hp; exact hfr r rfl
  obtain ⟨y, o, hs⟩ := TransferCache.step_defined g hk.2.2.2 _ (I.tier k) _ hp
  obtain ⟨l, pd, rfl, hheld, hsp, hpd, hlen, hpend, hfrm⟩ := TransferCache.tier_populate g hk.2.2.2 (I.tier k) hp hs
  obtain ⟨th, hth⟩ : ∃ th, (h.wait k)[j]? = some th := ⟨_, List.getElem?_eq_getElem hj⟩
  have hask := I.asks k j th pd hth hpd
  have hS : ∀ p ∈ (run.map Run.p).toList, ∃ r, ((Owner.lent k, r) ∈ h.led ∨ (Owner.fresh k, r) ∈ h.led) ∧ r.p = p := by
    intro p hp
    cases run with
    | none => cases hp
    | some r => simp at hp; exact ⟨r, Or.inr (hrun r rfl), hp.symm⟩
  have hfrm' : ∀ a, Outside (cfg.geo k) (run.map Run.p).toList a → y.x.c.w a = h.mem a := by
    intro a ha; rw [hfrm a ha, I.mem k]
  have hr := I.tiers hc hk hS hfrm' (.step _ (I.tier k) hp hs)
  have hled : h.led.map (retire k []) = h.led := retire_nil k h.led
  have hnin : th ∉ (h.wait k).eraseIdx j := by
    intro hm
    rw [List.mem_eraseIdx_iff_getElem?] at hm
    obtain ⟨i, hij, hi⟩ := hm
    have hil : i < (h.wait k).length := (List.getElem?_eq_some_iff.1 hi).1
    have e1 := (List.getElem?_eq_some_iff.1 hi).2
    have e2 := (List.getElem?_eq_some_iff.1 hth).2
    rcases Nat.lt_or_gt_of_ne hij with hlt | hlt
    · exact List.pairwise_iff_getElem.1 w2 i j hil hj hlt (e1.trans e2.symm)
    · exact List.pairwise_iff_getElem.1 w2 j i hj hil hlt (e2.trans e1.symm)
  refine ⟨h.putTier k y [], _, th, l, _, hth, by unfold Heap.onTier; rw [hs]; rfl, rfl, hask, hlen, rfl, rfl, hled, hnin, ?_, ?_⟩
  · have hmemled : ∀ {w : Owner} {r : Run}, (w, r) ∈ enrol h.led k run → (w, r) ∈ h.led ∨ (w = .lent k ∧ run = some r) := by
      intro w r hm
      cases run with
      | none => exact Or.inl hm
      | some r' =>
        rcases List.mem_cons.1 hm with hm | hm
        · cases hm; exact Or.inr ⟨rfl, rfl⟩
        · exact Or.inl (List.mem_of_mem_erase hm)
    exact
      { tc := I.tc
        tier := hr
        page := I.page
        mem := fun _ => rfl
        objs := fun k' o' => by
          show (h.tc.objects cfg.tc).count (k', o') + _ = (upd h.tier k y k').held.count o'
          have h2 := I.objs k' o'
          simp only [List.count_nil] at h2
          rw [pairs_count]
          unfold upd
          split
          · next hj => subst hj; rw [hheld, List.count_append]; omega
          · omega
        led := fun t => by
          show (ofTag cfg t (enrol (h.led.map (retire k [])) k run)).Perm _
          rw [hled]
          refine List.Perm.trans ?_ (I.led t)
          cases run with
          | none => exact .refl _
          | some r =>
            have h1 := ofTag_perm (cfg := cfg) (t := t) (List.perm_cons_erase (hrun r rfl))
            refine List.Perm.trans ?_ h1.symm
            unfold enrol
            rw [ofTag_cons, ofTag_cons]
            exact .refl _
        lent := fun i => by
          show (ofClass i (enrol (h.led.map (retire k [])) k run)).Perm (upd h.tier k y i).x.sp
          rw [hled]
          have hoc : (ofClass i (enrol h.led k run)).Perm ((if i = k then (run.map Run.p).toList else []) ++ ofClass i h.led) := by
            cases run with
            | none => simp [enrol]
            | some r =>
              have h1 := ofClass_perm (k := i) (List.perm_cons_erase (hrun r rfl))
              rw [ofClass_cons, if_neg (by simp), List.nil_append] at h1
              unfold enrol
              rw [ofClass_cons]
              refine List.Perm.append ?_ h1.symm
              by_cases hi : i = k
              · subst hi; simp
              · rw [if_neg (by simpa using fun h => hi h.symm), if_neg hi]
          refine hoc.trans ?_
          unfold upd
          split
          · next hi => subst hi; rw [hsp]; exact (I.lent i).append_left _
          · exact I.lent i
        size := fun k' r hm => by
          change (_, r) ∈ enrol (h.led.map (retire k [])) k run ∨ (_, r) ∈ enrol (h.led.map (retire k [])) k run at hm
          rw [hled] at hm
          rcases hm with hm | hm
          · rcases hmemled hm with h1 | ⟨h1, -⟩
            · exact I.size k' r (Or.inl h1)
            · cases h1
          · rcases hmemled hm with h1 | ⟨h1, h2⟩
            · exact I.size k' r (Or.inr h1)
            · cases h1; exact I.size _ r (Or.inl (hrun r h2))
        obs := I.obs
        low := I.low
        wait := fun i => by
          show (upd h.wait k ((h.wait k).eraseIdx j) i).length = (upd h.tier k y i).x.c.pend.length ∧ (upd h.wait k ((h.wait k).eraseIdx j) i).Nodup
          unfold upd
          split
          · next hi =>
            subst hi
            rw [hpend, List.length_eraseIdx, List.length_eraseIdx, w1]
            exact ⟨rfl, w2.sublist (List.eraseIdx_sublist _ _)⟩
          · exact I.wait i
        asks := fun k' i th' pd' h1 h2 => by
          have h1' : (upd h.wait k ((h.wait k).eraseIdx j) k')[i]? = some th' := h1
          have h2' : (upd h.tier k y k').x.c.pend[i]? = some pd' := h2
          by_cases hk' : k' = k
          · subst hk'
            rw [upd_same] at h1' h2'
            rw [hpend] at h2'
            rw [List.getElem?_eraseIdx] at h1' h2'
            split at h1'
            · next hlt => rw [if_pos hlt] at h2'; exact I.asks _ i th' pd' h1' h2'
            · next hlt => rw [if_neg hlt] at h2'; exact I.asks _ (i + 1) th' pd' h1' h2'
          · rw [upd_ne _ _ hk'] at h1' h2'
            exact I.asks _ i th' pd' h1' h2' }
  · refine ⟨fun k' o' hu ho ho' a ha => ?_, fun t r hb hb' a ha => ?_⟩
    · by_cases hk' : k' = k
      · subst hk'
        have := TransferCache.contents_kept g hk.2.2.2 _ (I.tier k') _ hp (fun w => by simp) _ _ hs o' ho
          (by change o' ∈ (upd h.tier k' y k').held at ho'; rw [upd_same] at ho'; exact ho') a ha
        rw [I.mem] at this; exact this
      · obtain ⟨r, h1, h2, h3⟩ := I.held hc hu ho
        exact I.others hc hk hS hfrm' h1 (by simpa using hk') (by simp) (obj_pg hc hu h2 h3 ha)
    · exact I.others hc hk hS hfrm' hb (by simp) (by simp) ha

/-- The steps inside the middle tier. -/
theorem Inv.inner (I : Inv cfg [] h) (hc : cfg.OK) (hk : cfg.tc.Used k) {e : TransferCache.Ev} (hi : e.Inner)
    (hp : TransferCache.Pre (cfg.geo k) (h.tier k) e) :
    ∃ h' o, h.onTier cfg k e = some (h', o) ∧ Inv cfg [] h' ∧ Kept cfg h h' ∧ h'.tc = h.tc := by
  obtain ⟨g, -⟩ := hc.geo k hk
  obtain ⟨y, o, hs⟩ := TransferCache.step_defined g hk.2.2.2 _ (I.tier k) _ hp
  obtain ⟨hgot, hheld, hpend, hnd, hsub, hsp, hfrm⟩ := TransferCache.tier_inner g hk.2.2.2 (I.tier k) hi hp hs
  have hS : ∀ p ∈ (h.tier k).x.sp, ∃ r, ((Owner.lent k, r) ∈ h.led ∨ (Owner.fresh k, r) ∈ h.led) ∧ r.p = p := by
    intro p hp
    obtain ⟨r, h1, h2, -⟩ := I.span hp
    exact ⟨r, Or.inl h1, h2⟩
  have hfrm' : ∀ a, Outside (cfg.geo k) (h.tier k).x.sp a → y.x.c.w a = h.mem a := by
    intro a ha; rw [hfrm a ha, I.mem k]
  have hr := I.tiers hc hk hS hfrm' (.step _ (I.tier k) hp hs)
  refine ⟨h.putTier k y o.freed, o, by unfold Heap.onTier; rw [hs]; rfl, ?_, ?_, rfl⟩
  · exact
      { tc := I.tc
        tier := hr
        page := I.page
        mem := fun _ => rfl
        objs := fun k' o' => by
          show (h.tc.objects cfg.tc).count (k', o') + _ = (upd h.tier k y k').held.count o'
          rw [I.objs k' o']
          unfold upd
          split
          · next hj => subst hj; rw [hheld]
          · rfl
        led := fun t => by
          show (ofTag cfg t (h.led.map (retire k o.freed))).Perm _
          rw [ofTag_retire]; exact I.led t
        lent := fun i => by
          show (ofClass i (h.led.map (retire k o.freed))).Perm (upd h.tier k y i).x.sp
          rw [ofClass_retire]
          unfold upd
          split
          · next hi =>
            subst hi; rw [hsp]
            simp only [true_and]
            exact (I.lent i).filter _
          · next hi =>
            simp only [hi, false_and, not_false_eq_true, decide_true]
            rw [List.filter_eq_self.2 (by simp)]
            exact I.lent i
        size := fun k' r hm => by
          refine I.size k' r ?_
          rcases hm with hm | hm
          · rcases mem_retire hm with h1 | h1
            · exact Or.inl h1
            · cases h1
          · rcases mem_retire hm with h1 | h1
            · exact Or.inr h1
            · cases h1
        obs := I.obs
        low := I.low
        wait := fun j => by
          show _ = (upd h.tier k y j).x.c.pend.length ∧ _
          unfold upd; split
          · next hj => subst hj; rw [hpend]; exact I.wait j
          · exact I.wait j
        asks := fun k' j th pd h1 h2 => by
          refine I.asks k' j th pd h1 ?_
          have h2' : (upd h.tier k y k').x.c.pend[j]? = some pd := h2
          unfold upd at h2'; split at h2'
          · next hj => subst hj; rw [hpend] at h2'; exact h2'
          · exact h2' }
  · refine ⟨fun k' o' hu ho ho' a ha => ?_, fun t r hb hb' a ha => ?_⟩
    · by_cases hk' : k' = k
      · subst hk'
        have := TransferCache.contents_kept g hk.2.2.2 _ (I.tier k') _ hp (fun w hw => by subst hw; exact hi) _ _ hs o' ho
          (by rw [hheld]; exact ho) a ha
        rw [I.mem] at this; exact this
      · obtain ⟨r, h1, h2, h3⟩ := I.held hc hu ho
        exact I.others hc hk hS hfrm' h1 (by simpa using hk') (by simp) (obj_pg hc hu h2 h3 ha)
    · exact I.others hc hk hS hfrm' hb (by simp) (by simp) ha

end Verif.ThreadHeap
