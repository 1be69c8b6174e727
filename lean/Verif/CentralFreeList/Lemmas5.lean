import Verif.CentralFreeList.Lemmas4
/-! `InsertRange`, and the invariant along every history. -/
namespace Verif.CentralFreeList
open Verif.Span (Geo Mem IsObj InObj)
open Verif.HintedLists (HL)

theorem nodup_flatMap' {sp : List Nat} {live : Nat → List Nat} (h1 : sp.Nodup)
    (h2 : ∀ p ∈ sp, (live p).Nodup) (h3 : ∀ p ∈ sp, ∀ q ∈ sp, ∀ o, o ∈ live p → o ∈ live q → p = q) :
    (sp.flatMap live).Nodup := by
  induction sp with
  | nil => exact List.nodup_nil
  | cons p sp ih =>
    obtain ⟨a, b⟩ := List.nodup_cons.1 h1
    rw [List.flatMap_cons, List.nodup_append]
    refine ⟨h2 p (by simp), ih b (fun q hq => h2 q (List.mem_cons_of_mem _ hq))
      (fun q hq r hr => h3 q (List.mem_cons_of_mem _ hq) r (List.mem_cons_of_mem _ hr)), ?_⟩
    intro o ho o' ho' e
    subst e
    obtain ⟨q, hq, hoq⟩ := List.mem_flatMap.1 ho'
    have := h3 p (by simp) q (List.mem_cons_of_mem _ hq) o ho hoq
    exact a (this ▸ hq)

/-- What holds of the spans in either mode. -/
theorem Inv.spans {k : Geo} (hk : k.OK) {x : World} {live : Nat → List Nat} (h : Inv k x live) :
    x.sp.Nodup ∧ (∀ p ∈ x.sp, ∀ q ∈ x.sp, p ≠ q → Apart k p q) ∧
    (∀ p ∈ x.sp, (live p).Nodup ∧ (∀ o ∈ live p, IsObj (spanAt k p) o) ∧ 0 < (live p).length ∧
      (live p).length ≤ k.count) := by
  by_cases hc : k.count = 1
  · obtain ⟨a, b, d, _⟩ := h.single hc
    refine ⟨a, b, fun p hp => ?_⟩
    rw [d p hp]
    refine ⟨by simp, ?_, by simp, by simp; omega⟩
    intro o ho
    rw [List.mem_singleton.1 ho]
    exact ⟨0, by show 0 < k.count; omega, by simp⟩
  · obtain ⟨a, _⟩ := h.multi hc
    refine ⟨a.nodup, a.apart, fun p hp => ?_⟩
    obtain ⟨f1, f2, _, _, f5, f6⟩ := a.facts hk hp
    exact ⟨f1, f2, f5, f6⟩

theorem Inv.obj_span {k : Geo} (hk : k.OK) {x : World} {live : Nat → List Nat} (h : Inv k x live)
    {p q o : Nat} (hp : p ∈ x.sp) (hq : q ∈ x.sp) (ho : IsObj (spanAt k p) o) (ho' : IsObj (spanAt k q) o) :
    p = q := by
  apply Classical.byContradiction
  intro hne
  have h1 := obj_range hk ho
  have h2 := obj_range hk ho'
  have := hk.sizePos
  rcases (h.spans hk).2.1 p hp q hq hne with h | h
  · have := Nat.mul_le_mul_right k.pageSize h; omega
  · have := Nat.mul_le_mul_right k.pageSize h; omega

theorem Inv.nodup {k : Geo} (hk : k.OK) {x : World} {live : Nat → List Nat} (h : Inv k x live) :
    (x.held ++ inHand x.c).Nodup := by
  rw [← h.perm.nodup_iff]
  obtain ⟨a, _, b⟩ := h.spans hk
  exact nodup_flatMap' a (fun p hp => (b p hp).1)
    (fun p hp q hq o ho ho' => h.obj_span hk hp hq ((b p hp).2.1 o ho) ((b q hq).2.1 o ho'))

theorem mapObjects_spec {k : Geo} (hk : k.OK) {x : World} {live : Nat → List Nat} (h : Inv k x live) :
    ∀ (batch : List Nat), (∀ o ∈ batch, o ∈ x.held) →
    ∃ spans, mapObjects k x.c batch = some spans ∧ spans.length = batch.length ∧
      ∀ y ∈ batch.zip spans, y.2 ∈ x.sp ∧ y.1 ∈ live y.2 := by
  intro batch
  induction batch with
  | nil => intro _; exact ⟨[], rfl, rfl, by simp⟩
  | cons o batch ih =>
    intro hsub
    obtain ⟨spans, e, hl, hz⟩ := ih fun o ho => hsub o (List.mem_cons_of_mem _ ho)
    have ho : o ∈ x.sp.flatMap live := h.perm.mem_iff.2 (List.mem_append_left _ (hsub o (by simp)))
    obtain ⟨p, hp, hop⟩ := List.mem_flatMap.1 ho
    have hr := obj_range hk (((h.spans hk).2.2 p hp).2.1 o hop)
    have hps : 0 < k.pageSize := Nat.pow_pos (by omega)
    have hsz := hk.sizePos
    have hm : x.c.map (o / 2 ^ k.pageShift) = some p := by
      rw [h.map]
      refine ⟨hp, (Nat.le_div_iff_mul_le hps).2 hr.1, (Nat.div_lt_iff_lt_mul hps).2 (by omega)⟩
    refine ⟨p :: spans, ?_, by simp [hl], ?_⟩
    · rw [mapObjects, hm, e]
    · intro y hy
      rw [List.zip_cons_cons] at hy
      rcases List.mem_cons.1 hy with rfl | hy
      · exact ⟨hp, hop⟩
      · exact hz y hy

theorem unregister_map {k : Geo} {c : Cfl} {sp : List Nat} (freed : List Nat)
    (h : ∀ a q, c.map a = some q ↔ q ∈ sp ∧ q ≤ a ∧ a < q + k.numPages) :
    ∀ a q, (unregister c freed).map a = some q ↔
      q ∈ sp.filter (fun p => decide (p ∉ freed)) ∧ q ≤ a ∧ a < q + k.numPages := by
  intro a q
  show (match c.map a with | some p => if p ∈ freed then none else some p | none => none) = some q ↔ _
  rw [List.mem_filter]
  cases hm : c.map a with
  | none =>
    simp only [reduceCtorEq, false_iff]
    rintro ⟨⟨h1, _⟩, h2⟩
    rw [(h a q).2 ⟨h1, h2⟩] at hm
    cases hm
  | some p =>
    have hp := (h a p).1 hm
    by_cases hf : p ∈ freed
    · simp only [hf, if_true, reduceCtorEq, false_iff]
      rintro ⟨⟨h1, h3⟩, h2⟩
      rw [(h a q).2 ⟨h1, h2⟩] at hm
      cases hm
      simp [hf] at h3
    · simp only [hf, if_false, Option.some.injEq]
      constructor
      · rintro rfl; exact ⟨⟨hp.1, by simpa using hf⟩, hp.2⟩
      · rintro ⟨⟨h1, _⟩, h2⟩
        have := (h a q).2 ⟨h1, h2⟩
        rw [hm] at this
        cases this
        rfl

theorem filter_in {L freed : List Nat} (h : L.Nodup) (hf : freed.Nodup) (hs : ∀ p ∈ freed, p ∈ L) :
    (L.filter fun p => decide (p ∉ freed)).length + freed.length = L.length := by
  have := (filter_out_perm h hf hs).length_eq
  rw [List.length_append] at this
  omega

theorem insert_spec {k : Geo} (hk : k.OK) {x : World} {live : Nat → List Nat} (h : Inv k x live)
    {batch : List Nat} (hb : Pre k x (.insert batch)) :
    ∃ c' freed live', insert k x.c batch = some (c', freed) ∧
      Inv k ⟨c', x.sp.filter fun p => decide (p ∉ freed), x.held.filter fun o => decide (o ∉ batch)⟩ live' ∧
      freed.Nodup ∧ (∀ p, p ∈ freed ↔ p ∈ x.sp ∧ ∀ o ∈ live p, o ∈ batch) ∧ freed.length ≤ kMaxObjectsToMove ∧
      (∀ p ∈ x.sp, p ∉ freed → live' p = (live p).filter fun o => decide (o ∉ batch)) ∧
      (∀ q ∈ x.sp, ∀ o ∈ live q, o ∉ batch → ∀ a, InObj (spanAt k q) o a → c'.w a = x.c.w a) ∧
      c'.pend = x.c.pend ∧
      ∀ a, (∀ q ∈ x.sp, ∀ o, IsObj (spanAt k q) o → ¬ InObj (spanAt k q) o a) → c'.w a = x.c.w a := by
  obtain ⟨hne, hlen, hnd, hsub⟩ := hb
  have hbpos := List.length_pos_iff.2 hne
  obtain ⟨spans, e1, hsl, hz⟩ := mapObjects_spec hk h batch hsub
  obtain ⟨s1, s2, s3⟩ := h.spans hk
  have hnodup := h.nodup hk
  obtain ⟨hn1, hn2, hn3⟩ := List.nodup_append.1 hnodup
  have hperm' : ∀ (freed : List Nat) (live' : Nat → List Nat), (∀ p ∈ x.sp, p ∉ freed → live' p = (live p).filter fun o => decide (o ∉ batch)) →
      (∀ p ∈ freed, p ∈ x.sp ∧ ∀ o ∈ live p, o ∈ batch) →
      ((x.sp.filter fun p => decide (p ∉ freed)).flatMap live').Perm
        ((x.held.filter fun o => decide (o ∉ batch)) ++ inHand x.c) := by
    intro freed live' v f
    rw [flatMap_filter x.sp freed live live' batch v (fun p _ hp => (f p hp).2)]
    have h1 := h.perm.filter (fun o => decide (o ∉ batch))
    rw [List.filter_append] at h1
    rwa [filter_none (L := inHand x.c) (A := batch)] at h1
    intro o ho hob
    exact hn3 o (hsub o hob) o ho rfl
  have hheld := filter_in hn1 hnd hsub
  unfold insert
  rw [if_neg (by omega), e1]
  simp only []
  by_cases hc : k.count = 1
  · rw [if_pos hc]
    obtain ⟨_, _, d, e⟩ := h.single hc
    have hzz : ∀ y ∈ batch.zip spans, y.2 ∈ x.sp ∧ y.1 = (spanAt k y.2).start := by
      intro y hy
      obtain ⟨a, b⟩ := hz y hy
      rw [d _ a] at b
      exact ⟨a, List.mem_singleton.1 b⟩
    have hbs : batch = spans.map fun p => (spanAt k p).start := by
      have : ∀ (B S : List Nat), S.length = B.length → (∀ y ∈ B.zip S, y.2 ∈ x.sp ∧ y.1 = (spanAt k y.2).start) →
          B = S.map fun p => (spanAt k p).start := by
        intro B
        induction B with
        | nil => intro S hS _; rw [List.length_eq_zero_iff.1 hS]; rfl
        | cons b B ih =>
          intro S hS hy
          cases S with
          | nil => simp at hS
          | cons s S =>
            rw [List.zip_cons_cons] at hy
            rw [List.map_cons, ← ih S (by simpa using hS) fun y hy' => hy y (List.mem_cons_of_mem _ hy')]
            have : b = (spanAt k s).start := (hy (b, s) (by simp)).2
            rw [← this]
      exact this batch spans hsl hzz
    have hspmem : ∀ p ∈ spans, p ∈ x.sp := by
      intro p hp
      obtain ⟨j, hj, rfl⟩ := List.mem_iff_getElem.1 hp
      have : (batch[j]'(by omega), spans[j]) ∈ batch.zip spans := by
        rw [List.mem_iff_getElem]
        exact ⟨j, by rw [List.length_zip]; omega, by rw [List.getElem_zip]⟩
      exact (hzz _ this).1
    have hspnd : spans.Nodup := by
      rw [hbs] at hnd
      exact (List.pairwise_map.1 hnd).imp fun hne e => hne (by rw [e])
    have hiff : ∀ p, p ∈ spans ↔ p ∈ x.sp ∧ ∀ o ∈ live p, o ∈ batch := by
      intro p
      constructor
      · intro hp
        refine ⟨hspmem p hp, ?_⟩
        rw [d p (hspmem p hp)]
        intro o ho
        rw [List.mem_singleton.1 ho, hbs]
        exact List.mem_map.2 ⟨p, hp, rfl⟩
      · rintro ⟨hp, ho⟩
        rw [d p hp] at ho
        have := ho _ (List.mem_singleton.2 rfl)
        rw [hbs] at this
        obtain ⟨q, hq, e⟩ := List.mem_map.1 this
        have : q = p := by
          have hps : 0 < k.pageSize := Nat.pow_pos (by omega)
          exact Nat.eq_of_mul_eq_mul_right hps e
        exact this ▸ hq
    have hlive : ∀ p ∈ x.sp, p ∉ spans → live p = (live p).filter fun o => decide (o ∉ batch) := by
      intro p hp hps
      rw [filter_none]
      intro o ho hob
      apply hps
      rw [hiff]
      refine ⟨hp, fun o' ho' => ?_⟩
      rw [d p hp] at ho ho'
      rw [List.mem_singleton.1 ho', ← List.mem_singleton.1 ho]
      exact hob
    refine ⟨_, spans, live, rfl, ?_, hspnd, hiff, by omega, hlive, fun _ _ _ _ _ _ _ => rfl, rfl, fun _ _ => rfl⟩
    refine ⟨hperm' spans live hlive (fun p hp => (hiff p).1 hp), unregister_map spans h.map, h.pend,
      fun hh => absurd hc hh, fun _ => ⟨s1.filter _, ?_, ?_, e⟩⟩
    · exact fun p hp q hq => s2 p (List.mem_filter.1 hp).1 q (List.mem_filter.1 hq).1
    · exact fun p hp => d p (List.mem_filter.1 hp).1
  · rw [if_neg hc]
    obtain ⟨h1, h2, h3⟩ := h.multi hc
    obtain ⟨runs, e2, hg⟩ := recordSameSpanRuns_good (spans := spans) (by
      intro hh; rw [hh] at hsl; simp at hsl; omega)
    rw [e2]
    simp only []
    obtain ⟨c', freed, live', e3, k3, sm, n3, f3, l3, v3, m3, r3⟩ := insertLoop_spec hk (runs := runs)
      (idx := (batch.zip spans).map fun (a, p) => Span.objIdx (spanAt k p) a) (n := batch.length)
      batch.length spans batch 0 0 spans x.c x.sp live h1 hg (by simp) (by omega) (by simp) (by omega)
      (by omega) (by omega) (by omega) hz hnd
    rw [List.take_zero, List.nil_append] at e3
    rw [e3]
    simp only []
    rw [if_neg (show ¬ kMaxObjectsToMove < freed.length by omega)]
    have hiff : ∀ p, p ∈ freed ↔ p ∈ x.sp ∧ ∀ o ∈ live p, o ∈ batch := by
      intro p
      refine ⟨f3 p, ?_⟩
      rintro ⟨hp, ho⟩
      apply Classical.byContradiction
      intro hpf
      have h4 := k3.ne p (List.mem_filter.2 ⟨hp, by simpa using hpf⟩)
      rw [v3 p hp hpf] at h4
      apply h4
      rw [List.filter_eq_nil_iff]
      intro o hoo
      simpa using ho o hoo
    have hfl := filter_in s1 n3 (fun p hp => (f3 p hp).1)
    refine ⟨_, freed, live', rfl, ?_, n3, hiff, by omega, v3, m3, sm.pend, r3⟩
    refine ⟨?_, unregister_map freed (by rw [show ({ c' with
        counter := c'.counter - (freed.length * k.count : Nat) + (batch.length : Nat),
        returned := c'.returned + freed.length } : Cfl).map = x.c.map from sm.map]; exact h.map), ?_,
      fun _ => ⟨⟨k3.nodup, k3.apart, k3.reach, k3.ne, k3.lists, k3.hist⟩, ?_, ?_⟩, fun hh => absurd hh hc⟩
    · have := hperm' freed live' v3 f3
      show (((x.sp.filter fun p => decide (p ∉ freed))).flatMap live').Perm (_ ++ c'.pend.flatMap Pend.got)
      rw [sm.pend]
      exact this
    · show ∀ pd ∈ c'.pend, _
      rw [sm.pend]; exact h.pend
    · show c'.counter - (freed.length * k.count : Nat) + (batch.length : Nat) +
        ((x.held.filter fun o => decide (o ∉ batch)).length : Nat) =
        ((x.sp.filter fun p => decide (p ∉ freed)).length * k.count : Nat)
      rw [sm.counter]
      have hmul : (x.sp.filter fun p => decide (p ∉ freed)).length * k.count + freed.length * k.count =
          x.sp.length * k.count := by rw [← Nat.add_mul, hfl]
      omega
    · show c'.requested = c'.returned + freed.length + (x.sp.filter fun p => decide (p ∉ freed)).length
      rw [sm.requested, sm.returned]; omega

theorem remove_spec {k : Geo} (hk : k.OK) {x : World} {live : Nat → List Nat} (h : Inv k x live)
    {n : Nat} (hn : Pre k x (.remove n)) :
    ∃ c' r live', remove k x.c n = some (c', r) ∧
      Inv k ⟨c', x.sp, r.getD [] ++ x.held⟩ live' ∧ c'.w = x.c.w ∧
      ((∃ got, r = some got ∧ got.length = n ∧ c'.pend = x.c.pend ∧ FirstBest k x.sp live got) ∨
       (∃ got want, r = none ∧ c'.pend = ⟨got, want⟩ :: x.c.pend ∧ 0 < want ∧ got.length + want = n ∧
         FirstBest k x.sp live got ∧ (∀ p ∈ x.sp, (live' p).length = k.count))) := by
  obtain ⟨hn0, hn1⟩ := hn
  unfold remove
  rw [if_neg (by omega)]
  by_cases hc : k.count = 1
  · rw [if_pos hc]
    obtain ⟨a, b, d, e⟩ := h.single hc
    refine ⟨_, none, live, rfl, ?_, rfl, Or.inr ⟨[], n, rfl, rfl, hn0, by simp, by intro o ho; simp at ho, ?_⟩⟩
    · refine ⟨h.perm, h.map, ?_, fun hh => absurd hc hh, fun _ => ⟨a, b, d, ?_⟩⟩
      · intro pd hpd
        rcases List.mem_cons.1 hpd with rfl | hpd
        · exact ⟨hn0, by simpa using hn1⟩
        · exact h.pend pd hpd
      · intro pd hpd
        rcases List.mem_cons.1 hpd with rfl | hpd
        · rfl
        · exact e pd hpd
    · intro p hp; rw [d p hp, hc]; rfl
  · rw [if_neg hc]
    obtain ⟨h1, h2, h3⟩ := h.multi hc
    obtain ⟨c', r, live', new, e1, k1, s1, w1, p1, b1, hr⟩ := removeLoop_spec hk n x.c x.sp live [] n h1 hn0
      (Nat.le_refl _)
    rw [List.nil_append] at hr
    rcases hr with ⟨rfl, hl⟩ | ⟨want', rfl, hw, hl, hfull⟩
    · rw [e1]
      refine ⟨_, some new, live', rfl, ?_, w1, Or.inl ⟨new, rfl, hl, s1.pend, b1⟩⟩
      refine ⟨?_, by rw [show ({ c' with counter := c'.counter - (new.length : Nat) } : Cfl).map = x.c.map from s1.map]; exact h.map, ?_,
        fun _ => ⟨⟨k1.nodup, k1.apart, k1.reach, k1.ne, k1.lists, k1.hist⟩, ?_, ?_⟩, fun hh => absurd hh hc⟩
      · show (x.sp.flatMap live').Perm (new ++ x.held ++ c'.pend.flatMap Pend.got)
        rw [s1.pend, List.append_assoc]
        exact p1.trans (List.Perm.append_left _ h.perm)
      · show ∀ pd ∈ c'.pend, _
        rw [s1.pend]; exact h.pend
      · show c'.counter - (new.length : Nat) + ((new ++ x.held).length : Nat) = (x.sp.length * k.count : Nat)
        rw [s1.counter, List.length_append]; omega
      · show c'.requested = c'.returned + x.sp.length
        rw [s1.requested, s1.returned]; exact h3
    · rw [e1]
      refine ⟨_, none, live', rfl, ?_, w1, Or.inr ⟨new, want', rfl, ?_, hw, hl, b1, hfull⟩⟩
      · refine ⟨?_, by rw [show ({ c' with pend := ⟨new, want'⟩ :: c'.pend } : Cfl).map = x.c.map from s1.map]; exact h.map, ?_,
          fun _ => ⟨⟨k1.nodup, k1.apart, k1.reach, k1.ne, k1.lists, k1.hist⟩, ?_, ?_⟩, fun hh => absurd hh hc⟩
        · show (x.sp.flatMap live').Perm ([] ++ x.held ++ (⟨new, want'⟩ :: c'.pend).flatMap Pend.got)
          rw [s1.pend, List.flatMap_cons]
          refine p1.trans ((List.Perm.append_left _ h.perm).trans ?_)
          unfold inHand
          rw [List.perm_iff_count]; intro a; simp only [List.count_append, List.count_nil]; omega
        · show ∀ pd ∈ (⟨new, want'⟩ :: c'.pend : List Pend), _
          intro pd hpd
          rcases List.mem_cons.1 hpd with rfl | hpd
          · exact ⟨hw, by show new.length + want' ≤ _; omega⟩
          · rw [s1.pend] at hpd; exact h.pend pd hpd
        · show c'.counter + (([] ++ x.held).length : Nat) = (x.sp.length * k.count : Nat)
          rw [s1.counter, List.nil_append]; exact h2
        · show c'.requested = c'.returned + x.sp.length
          rw [s1.requested, s1.returned]; exact h3
      · show (⟨new, want'⟩ :: c'.pend : List Pend) = _
        rw [s1.pend]

theorem write_inv {k : Geo} (hk : k.OK) {x : World} {live : Nat → List Nat} (h : Inv k x live) {w : Mem}
    (hw : Pre k x (.write w)) : Inv k { x with c := { x.c with w := w } } live := by
  refine ⟨h.perm, h.map, h.pend, fun hc => ?_, h.single⟩
  obtain ⟨h1, h2, h3⟩ := h.multi hc
  refine ⟨⟨h1.nodup, h1.apart, ?_, h1.ne, h1.lists, h1.hist⟩, h2, h3⟩
  intro p hp
  refine .write w (h1.reach p hp) ?_
  intro o ho hol
  apply hw p hp o ho
  intro hoh
  apply hol
  have hmem : o ∈ x.sp.flatMap live := h.perm.mem_iff.2 (List.mem_append_left _ hoh)
  obtain ⟨q, hq, hoq⟩ := List.mem_flatMap.1 hmem
  have := h.obj_span hk hp hq ho (((h.spans hk).2.2 q hq).2.1 o hoq)
  exact this ▸ hoq

theorem inv_init (k : Geo) (w : Mem) : Inv k ⟨init w, [], []⟩ (fun _ => []) := by
  refine ⟨List.Perm.refl _, ?_, ?_, fun _ => ⟨⟨List.nodup_nil, ?_, ?_, ?_, ?_, ?_⟩, ?_, rfl⟩,
    fun _ => ⟨List.nodup_nil, ?_, ?_, ?_⟩⟩
  · intro a p; simp [init]
  · intro pd h; simp [init] at h
  · intro p h; simp at h
  · intro p h; simp at h
  · intro p h; simp at h
  · exact ⟨HintedLists.Reach.new, fun p i => by simp [init, HL.new], fun p h => by simp at h⟩
  · intro b; simp [init]
  · simp [init]
  · intro p h; simp at h
  · intro p h; simp at h
  · intro p h; simp [init] at h

/-- No step fails, and the invariant survives it. -/
theorem step_inv {k : Geo} (hk : k.OK) {x : World} {live : Nat → List Nat} (h : Inv k x live) {e : Ev}
    (hp : Pre k x e) : ∃ x' o live', step k x e = some (x', o) ∧ Inv k x' live' := by
  cases e with
  | write w => exact ⟨_, _, live, rfl, write_inv hk h hp⟩
  | remove n =>
    obtain ⟨c', r, live', e1, hi, _⟩ := remove_spec hk h hp
    exact ⟨_, _, live', by simp only [step, e1, Option.map_some]; rfl, hi⟩
  | populate j span =>
    obtain ⟨c', r, live', pd, new, e1, _, _, hi, _⟩ := populate_spec hk h hp.1 hp.2
    exact ⟨_, _, live', by simp only [step, e1, Option.map_some]; rfl, hi⟩
  | insert batch =>
    obtain ⟨c', freed, live', e1, hi, _⟩ := insert_spec hk h hp
    exact ⟨_, _, live', by simp only [step, e1, Option.map_some]; rfl, hi⟩

theorem Reach.inv {k : Geo} (hk : k.OK) {x : World} (h : Reach k x) : ∃ live, Inv k x live := by
  induction h with
  | init w => exact ⟨_, inv_init k w⟩
  | step e _ hp he ih =>
    obtain ⟨live, hi⟩ := ih
    obtain ⟨x', o, live', e1, hi'⟩ := step_inv hk hi hp
    rw [e1] at he
    cases he
    exact ⟨live', hi'⟩

end Verif.CentralFreeList
