import Verif.TransferCache.Props
/-!
What the steps of the middle tier of a size class mean for the layers above and below it, in the form in which the
composition needs it.
-/
namespace Verif.TransferCache
open Verif.Span (Geo Mem IsObj InObj)

variable {k : Geo} {B : Nat}

/-- Word `a` is in no object of the spans `sp`. -/
def Outside (k : Geo) (sp : List Nat) (a : Nat) : Prop :=
  ∀ p ∈ sp, ∀ o, IsObj (CentralFreeList.spanAt k p) o → ¬ InObj (CentralFreeList.spanAt k p) o a

theorem held_nodup (hk : k.OK) (hB : B ≤ 128) {y : World} (h : Reach k B y) : y.held.Nodup := by
  have := (conserved hk hB y h).2.2
  rw [List.append_assoc] at this
  exact (List.nodup_append.1 this).1

theorem held_x (hk : k.OK) (hB : B ≤ 128) {y : World} (h : Reach k B y) {o : Nat} (ho : o ∈ y.held) : o ∈ y.x.held :=
  (conserved hk hB y h).2.1.mem_iff.1 (List.mem_append_left _ (List.mem_append_left _ ho))

theorem tier_insert (hk : k.OK) (hB : B ≤ 128) {y : World} (h : Reach k B y) {i : Nat} {batch : List Nat} {hint : Bool}
    (hp : Pre k y (.insert i batch hint)) :
    ∃ y', step k B y (.insert i batch hint) = some (y', ⟨none, [], none⟩) ∧ y'.x = y.x ∧
      ∀ o, y'.held.count o + batch.count o = y.held.count o := by
  obtain ⟨y', _, _, _, e1, _, _, _, _, _, hh, hx⟩ := insert_exact hk hB y h i batch hint hp
  refine ⟨y', e1, hx, fun o => ?_⟩
  have n1 := List.nodup_iff_count.1 (held_nodup hk hB h) o
  have n2 := List.nodup_iff_count.1 (held_nodup hk hB (.step _ h hp e1)) o
  have n3 := List.nodup_iff_count.1 hp.2.2.2.1 o
  have hm := hh o
  by_cases h1 : o ∈ batch
  · have h2 := hp.2.2.2.2 o h1
    have h3 : o ∉ y'.held := fun h3 => (hm.1 h3).2 h1
    rw [List.count_eq_zero.2 h3]
    have a1 := List.count_pos_iff.2 h1
    have a2 := List.count_pos_iff.2 h2
    omega
  · rw [List.count_eq_zero.2 h1]
    by_cases h2 : o ∈ y.held
    · have a1 := List.count_pos_iff.2 (hm.2 ⟨h2, h1⟩)
      have a2 := List.count_pos_iff.2 h2
      omega
    · have h3 : o ∉ y'.held := fun h3 => h2 (hm.1 h3).1
      rw [List.count_eq_zero.2 h3, List.count_eq_zero.2 h2]

theorem tier_below (hk : k.OK) {y : World} (hc : CentralFreeList.Reach k y.x) {n : Nat} (h0 : 0 < n) (h1 : n ≤ kMaxObjectsToMove) {y' : World}
    {o : Out} (hs : y.below k n = some (y', o)) :
    o.freed = [] ∧ y'.held = o.got.getD [] ++ y.held ∧ y'.x.sp = y.x.sp ∧ y'.x.c.w = y.x.c.w ∧
      ((∃ l, o.got = some l ∧ l.length ≤ n ∧ y'.x.c.pend = y.x.c.pend) ∨
       (∃ pd : CentralFreeList.Pend, o.got = none ∧ y'.x.c.pend = pd :: y.x.c.pend ∧ pd.got.length + pd.want = n)) := by
  obtain ⟨x', r, e1, e2, e3, e4⟩ := CentralFreeList.remove_exact hk y.x hc n ⟨h0, h1⟩
  unfold World.below at hs
  rw [e1] at hs
  simp only [Option.map_some, Option.some.injEq, Prod.mk.injEq] at hs
  obtain ⟨rfl, rfl⟩ := hs
  refine ⟨rfl, rfl, e2, e3, ?_⟩
  rcases e4 with ⟨got, rfl, hl, _, _, hp⟩ | ⟨got, want, rfl, hp, _, hl, _, _, _⟩
  · exact Or.inl ⟨got, rfl, by omega, hp⟩
  · exact Or.inr ⟨⟨got, want⟩, rfl, hp, hl⟩

theorem tier_remove (hk : k.OK) (hB : B ≤ 128) {y : World} (h : Reach k B y) {i n : Nat} {hint hint0 : Bool}
    (hp : Pre k y (.remove i n hint hint0)) {y' : World} {o : Out} (hs : step k B y (.remove i n hint hint0) = some (y', o)) :
    o.freed = [] ∧ y'.held = o.got.getD [] ++ y.held ∧ y'.x.sp = y.x.sp ∧ y'.x.c.w = y.x.c.w ∧
      ((∃ l, o.got = some l ∧ l.length ≤ n ∧ y'.x.c.pend = y.x.c.pend) ∨
       (∃ pd : CentralFreeList.Pend, o.got = none ∧ y'.x.c.pend = pd :: y.x.c.pend ∧ pd.got.length + pd.want = n)) := by
  have hK := h.K hk hB
  have hcfl := hK.cfl
  obtain ⟨hi, hn0, hn1⟩ := hp
  obtain ⟨u, hu⟩ := getElem_some hi
  obtain ⟨u', r, e2, ok, _, _, el, hr⟩ := remove_spec (hK.tc u (mem_of_get hu)) hn0 hn1 hint
  rcases hr with ⟨rfl, -, _⟩ | ⟨objs, rfl, _, hlen, hpos, ho⟩
  · by_cases hi0 : i = 0
    · simp only [step, hu, Option.bind_some, e2] at hs
      rw [if_pos hi0] at hs
      exact tier_below hk hcfl hn0 hn1 hs
    · obtain ⟨t0, ht0⟩ := getElem_some (show 0 < y.t.length by omega)
      obtain ⟨t0', r, e3, ok0, _, _, el0, hr0⟩ := remove_spec (hK.tc t0 (mem_of_get ht0)) hn0 hn1 hint0
      rcases hr0 with ⟨rfl, -, _⟩ | ⟨objs, rfl, _, hlen, hpos, ho⟩
      · simp only [step, hu, Option.bind_some, e2, hi0, if_false, ht0, e3] at hs
        exact tier_below hk hcfl hn0 hn1 hs
      · simp only [step, hu, Option.bind_some, e2, hi0, if_false, ht0, e3] at hs
        cases hs
        exact ⟨rfl, rfl, rfl, rfl, Or.inl ⟨objs, rfl, by omega, rfl⟩⟩
  · simp only [step, hu, Option.bind_some, e2] at hs
    cases hs
    exact ⟨rfl, rfl, rfl, rfl, Or.inl ⟨objs, rfl, by omega, rfl⟩⟩

theorem populate_pend {c c' : CentralFreeList.Cfl} {j : Nat} {span : Option Nat} {r : List Nat}
    (h : CentralFreeList.populate k c j span = some (c', r)) : c'.pend = c.pend.eraseIdx j := by
  unfold CentralFreeList.populate at h
  cases hj : c.pend[j]? with
  | none => rw [hj] at h; cases h
  | some pd =>
    rw [hj] at h
    cases span with
    | none => cases h; rfl
    | some p =>
      simp only at h
      split at h
      · cases h; rfl
      · split at h
        · cases h
        · split at h
          · cases h
          · split at h
            · cases h
            · next c1 h1 =>
              have hc1 : c1.pend = c.pend.eraseIdx j := by
                unfold CentralFreeList.recordSpanUtil at h1
                split at h1
                · cases h1; rfl
                · cases h1
              split at h
              · cases h
              · next c2 h2 =>
                cases h
                show c2.pend = _
                split at h2
                · cases h2; exact hc1
                · obtain ⟨ix, _, h3⟩ := Option.bind_eq_some_iff.1 h2
                  obtain ⟨hl, _, h4⟩ := Option.map_eq_some_iff.1 h3
                  rw [← h4]; exact hc1

theorem tier_populate (hk : k.OK) (hB : B ≤ 128) {y : World} (h : Reach k B y) {j : Nat} {span : Option Nat}
    (hp : Pre k y (.populate j span)) {y' : World} {o : Out} (hs : step k B y (.populate j span) = some (y', o)) :
    ∃ l pd, o = ⟨some l, [], none⟩ ∧ y'.held = l ++ y.held ∧ y'.x.sp = span.toList ++ y.x.sp ∧
      y.x.c.pend[j]? = some pd ∧ l.length ≤ pd.got.length + pd.want ∧ y'.x.c.pend = y.x.c.pend.eraseIdx j ∧
      ∀ a, Outside k span.toList a → y'.x.c.w a = y.x.c.w a := by
  obtain ⟨x', r, pd, new, e1, e2, _, e4, _, e6, _, _, _, e10⟩ :=
    CentralFreeList.populate_exact hk y.x (h.K hk hB).cfl j span hp
  simp only [step] at hs
  rw [e1] at hs
  simp only [Option.map_some, Option.some.injEq, Prod.mk.injEq] at hs
  obtain ⟨rfl, rfl⟩ := hs
  refine ⟨r, pd, rfl, rfl, e6, e2, e4, ?_, fun a ha => e10 a fun p hsp => ha p (by rw [hsp]; simp)⟩
  simp only [CentralFreeList.step] at e1
  obtain ⟨⟨c1, r1⟩, e, e'⟩ := Option.map_eq_some_iff.1 e1
  simp only [Prod.mk.injEq] at e'
  rw [← e'.1]
  exact populate_pend e

/-- Events of the tier's own housekeeping: batches on their way down, plundering, resizing. -/
def Ev.Inner : Ev → Prop
  | .land .. | .plunder _ | .plunderNext _ | .plunderStop _ | .shrink _ | .grow _ => True
  | _ => False

theorem tier_inner (hk : k.OK) (hB : B ≤ 128) {y : World} (h : Reach k B y) {e : Ev} (hi : e.Inner)
    (hp : Pre k y e) {y' : World} {o : Out} (hs : step k B y e = some (y', o)) :
    o.got = none ∧ y'.held = y.held ∧ y'.x.c.pend = y.x.c.pend ∧ o.freed.Nodup ∧ (∀ p ∈ o.freed, p ∈ y.x.sp) ∧
      y'.x.sp = (y.x.sp.filter fun p => decide (p ∉ o.freed)) ∧ ∀ a, Outside k y.x.sp a → y'.x.c.w a = y.x.c.w a := by
  have hK := h.K hk hB
  have triv : ∀ {y' : World} {o : Out}, o.got = none → o.freed = [] → y'.held = y.held → y'.x = y.x →
      o.got = none ∧ y'.held = y.held ∧ y'.x.c.pend = y.x.c.pend ∧ o.freed.Nodup ∧ (∀ p ∈ o.freed, p ∈ y.x.sp) ∧
      y'.x.sp = (y.x.sp.filter fun p => decide (p ∉ o.freed)) ∧ ∀ a, Outside k y.x.sp a → y'.x.c.w a = y.x.c.w a := by
    intro y' o h1 h2 h3 h4
    rw [h2, h4]
    exact ⟨h1, h3, rfl, List.nodup_nil, by simp, (List.filter_eq_self.2 (by simp)).symm, fun _ _ => rfl⟩
  cases e with
  | write w => cases hi
  | insert _ _ _ => cases hi
  | remove _ _ _ _ => cases hi
  | populate _ _ => cases hi
  | land j hint =>
    obtain ⟨y2, freed, f2, e1, e2, hh, h3 | h3⟩ := land_exact hk hB y h j hint hp
    · rw [e1] at hs; cases hs
      obtain ⟨fne, flen, fpos, fcont⟩ := hK.fl f2 (mem_of_get e2)
      have hfly := fun a => count_eraseIdx Flight.objs a y.flight j f2 e2
      have hpre : CentralFreeList.Pre k y.x (.insert f2.objs) := by
        refine ⟨fne, flen, ?_, ?_⟩
        · rw [List.nodup_iff_count]; intro b
          have := hK.counts hk b
          have h4 := hfly b
          unfold World.flying at this
          omega
        · intro o ho
          have h1 := hK.perm o
          have h2 := hfly o
          unfold World.flying at h1
          have : 0 < f2.objs.count o := List.count_pos_iff.2 ho
          exact List.count_pos_iff.1 (by omega)
      obtain ⟨x', fr, q1, q2, q3, q4, q5, q6, q7, q8, q9⟩ := CentralFreeList.insert_exact hk y.x hK.cfl f2.objs hpre
      have q0 := h3.2.2.2.1
      rw [q1] at q0
      simp only [Option.some.injEq, Prod.mk.injEq, CentralFreeList.Out.mk.injEq, true_and] at q0
      obtain ⟨rfl, rfl⟩ := q0
      refine ⟨rfl, hh, q8, q5, fun p hp => ((q6 p).1 hp).1, ?_, q9⟩
      simp only [CentralFreeList.step] at q1
      obtain ⟨⟨c1, r1⟩, e, e'⟩ := Option.map_eq_some_iff.1 q1
      simp only [Prod.mk.injEq, CentralFreeList.Out.mk.injEq, true_and] at e'
      obtain ⟨e', rfl⟩ := e'
      rw [← e']
    · rw [e1] at hs; cases hs
      exact triv rfl h3.2.2.1 hh h3.2.1
  | plunder j =>
    obtain ⟨y2, t, t', buf, e1, _, _, _, _, _, eh, ex, _⟩ := plunder_exact hk hB y h j hp
    rw [e1] at hs; cases hs; exact triv rfl rfl eh ex
  | plunderNext j =>
    obtain ⟨⟨i', r⟩, hc⟩ := getElem_some (show j < y.conts.length from hp)
    obtain ⟨u, hu⟩ := getElem_some (hK.ct _ (mem_of_get hc))
    obtain ⟨u', q, e1, ok, _, _, hq⟩ := turn_spec (B := B) (hK.tc u (mem_of_get hu)) hB r
    simp only [step, hc, hu, Option.bind_some, e1, Option.map_some] at hs
    cases hs
    cases q with
    | none => exact triv rfl rfl rfl rfl
    | some q => exact triv rfl rfl (send_x _ _ _ _).2.2.1 (send_x _ _ _ _).1
  | plunderStop j => cases hs; exact triv rfl rfl rfl rfl
  | shrink j =>
    obtain ⟨u, hu⟩ := getElem_some (show j < y.t.length from hp)
    obtain ⟨u', b, objs, e1, _⟩ := shrink_spec (B := B) (hK.tc u (mem_of_get hu)) hB
    simp only [step, hu, Option.bind_some, e1, Option.map_some] at hs
    cases hs; exact triv rfl rfl (send_x _ _ _ _).2.2.1 (send_x _ _ _ _).1
  | grow j =>
    obtain ⟨u, hu⟩ := getElem_some (show j < y.t.length from hp)
    obtain ⟨u', b, e1, _⟩ := grow_spec (B := B) (hK.tc u (mem_of_get hu))
    simp only [step, hu, Option.bind_some, e1, Option.map_some] at hs
    cases hs; exact triv rfl rfl rfl rfl

end Verif.TransferCache
