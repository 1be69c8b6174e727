import Verif.Treatment.Select
import Verif.Filler.Extra
/-! C75: a treatment of hugepages chooses the best candidates. -/
namespace Verif.Treatment
open Verif.Bitmap Verif.RangeTracker Verif.PageTracker Verif.HintedLists Verif.Filler

variable {N : Nat} {mode : Bool} {H : StdHeap} {IsHeap : (Nat → Nat → Bool) → List Nat → Prop}

theorem Pins.begin {f0 f : F} {A B : List Nat} (h : Pins f0 A B f) : f = treatBegin f0 A B := by
  obtain ⟨tr, rfl, ht⟩ := h
  obtain ⟨t1, e1, h1⟩ := pin_fold kSampled A f0
  obtain ⟨t2, e2, h2⟩ := pin_fold kCollapse B { f0 with tr := t1 }
  have e : treatBegin f0 A B = { f0 with tr := t2 } := by unfold treatBegin; rw [e1, e2]
  rw [e]
  have : tr = t2 := by
    funext x
    rw [ht x, h2 x]
    show _ = { t1 x with dontFree := if x ∈ B then (t1 x).dontFree ||| kCollapse else (t1 x).dontFree }
    rw [h1 x]
    by_cases ha : x ∈ A <;> by_cases hb : x ∈ B <;> simp [ha, hb, kSampled, kCollapse]
  rw [this]

theorem select_all (hN : 2 ≤ N) (hH : H.Lawful IsHeap) {f : F} {g : Gh} (h : Filler.Reach N mode f g) (ht : g.treat = none)
    (limit now : Nat) (info : Nat → Info) : ∃ L s, select H N mode limit now f info = some s ∧
      (L.map Prod.fst).Nodup ∧
      (∀ v, v ∈ L ↔ v.1 ∈ g.held ∧ v.2.1 = !(f.tr v.1).donated ∧ v.2.2 = (mode || !fullyReleased N mode (f.tr v.1))) ∧
      SInv IsHeap limit now f info L s := by
  have hk := (h.k hN).1
  obtain ⟨L, e, h1, h2⟩ := visits_spec hN hk
  refine ⟨L, L.foldl (visit H limit now) ⟨f, info, [], []⟩, by unfold select; rw [e]; rfl, h1, h2, ?_⟩
  have := SInv.all hH L [] ⟨f, info, [], []⟩ (SInv.start (IsHeap := IsHeap) (limit := limit) (now := now)) (by simpa using h1) (by
    intro x hx
    have hx' : x ∈ L := by simpa using hx
    have := hk.pins x.1 (Or.inl ((h2 x).1 hx').1)
    rw [ht] at this
    exact this)
  simpa using this

/-- C75: choosing the hugepages of a treatment never fails; it changes nothing but the pins, which the chosen
hugepages and no others get, and the time of their naming; afterwards the filler is in a state in which all that was
proved of fillers holds, with the treatment in progress. -/
theorem select_state (hN : 2 ≤ N) (hH : H.Lawful IsHeap) {f : F} {g : Gh} (h : Filler.Reach N mode f g) (ht : g.treat = none)
    (limit now : Nat) (info : Nat → Info) : ∃ s, select H N mode limit now f info = some s ∧
      Filler.Reach N mode s.f { g with treat := some (s.tag, s.col) } ∧
      (∀ id, ∃ p, s.f.tr id = { f.tr id with dontFree := p }) ∧
      (∀ id ∈ g.held, (s.f.tr id).dontFree ≠ 0 ↔ id ∈ s.tag ∨ id ∈ s.col) ∧
      (∀ id, s.info id = if id ∈ s.tag then { info id with tagTime := now } else info id) := by
  obtain ⟨L, s, e, h1, h2, hi⟩ := select_all hN hH h ht limit now info
  have hk := (h.k hN).1
  have hLm : ∀ q x, x ∈ (L.filter q).map Prod.fst → x ∈ g.held := by
    intro q x hx
    obtain ⟨y, hy, rfl⟩ := List.mem_map.1 hx
    exact ((h2 y).1 (List.mem_filter.1 hy).1).1
  have hA : ∀ id ∈ s.tag, id ∈ g.held := by
    intro id hid
    rw [hi.tag] at hid
    exact hLm _ _ (List.mem_of_mem_take hid)
  have hB : ∀ id ∈ s.col, id ∈ g.held := fun id hid => hLm _ _ (hi.col.sub id hid)
  obtain ⟨tr, et, htr⟩ := hi.pins
  refine ⟨s, e, ?_, ?_, ?_, hi.info⟩
  · rw [hi.pins.begin]
    exact (treatBegin_shape hN h ht hA hB hi.col.nd).1
  · intro id
    rw [et]
    exact ⟨_, htr id⟩
  · intro id hid
    have h0 := hk.pins id (Or.inl hid)
    rw [ht] at h0
    have h0 : (f.tr id).dontFree = 0 := h0
    rw [et]
    show (tr id).dontFree ≠ 0 ↔ _
    rw [htr id]
    simp only [h0]
    by_cases ha : id ∈ s.tag <;> by_cases hb : id ∈ s.col <;> simp [ha, hb]

/-- C75: the hugepages looked at for collapsing are at most 64, all of them want a look, and one that wants a look is
left out only if there are 64 none of which it beats. -/
theorem select_collapse (hN : 2 ≤ N) (hH : H.Lawful IsHeap) {f : F} {g : Gh} (h : Filler.Reach N mode f g) (ht : g.treat = none)
    (limit now : Nat) (info : Nat → Info) {s : Sel} (hs : select H N mode limit now f info = some s) :
    s.col.Nodup ∧ s.col.length ≤ 64 ∧ (∀ id ∈ s.col, WantsLook N mode limit now f info g id) ∧
    ∀ id, WantsLook N mode limit now f info g id → id ∉ s.col → s.col.length = 64 ∧ ∀ y ∈ s.col, ¬ Better f id y := by
  obtain ⟨L, s', e, h1, h2, hi⟩ := select_all hN hH h ht limit now info
  rw [hs] at e
  obtain rfl := Option.some.inj e
  have hel : ∀ id, id ∈ (L.filter (colOk limit now f info)).map Prod.fst ↔ WantsLook N mode limit now f info g id := by
    intro id
    rw [List.mem_map]
    unfold WantsLook
    constructor
    · rintro ⟨v, hv, rfl⟩
      obtain ⟨hv, hc⟩ := List.mem_filter.1 hv
      obtain ⟨a1, a2, a3⟩ := (h2 v).1 hv
      unfold colOk at hc
      simp only [Bool.and_eq_true, Bool.or_eq_true, Bool.not_eq_true', decide_eq_true_eq] at hc
      obtain ⟨⟨c1, c2⟩, c3⟩ := hc
      refine ⟨a1, c2, c3.imp (fun h => h) (fun h => by omega), fun hm => ?_⟩
      rw [a3, hm] at c1
      rw [hm]
      simpa using c1
    · rintro ⟨a1, a2, a3, a4⟩
      refine ⟨(id, !(f.tr id).donated, (mode || !fullyReleased N mode (f.tr id))), List.mem_filter.2 ⟨(h2 _).2 ⟨a1, rfl, rfl⟩, ?_⟩, rfl⟩
      unfold colOk
      simp only [Bool.and_eq_true, Bool.or_eq_true, Bool.not_eq_true', decide_eq_true_eq]
      refine ⟨⟨?_, a2⟩, a3.imp (fun h => h) (fun h => by omega)⟩
      cases hm : mode with
      | true => exact Or.inl rfl
      | false => right; have := a4 hm; rw [hm] at this; exact this
  have hlen := hi.col.len
  unfold kTotal at hlen
  refine ⟨hi.col.nd, by omega, fun id hid => (hel id).1 (hi.col.sub id hid), ?_⟩
  intro id hw hno
  have hE := (hel id).2 hw
  refine ⟨?_, fun y hy hb => ?_⟩
  · apply Classical.byContradiction
    intro hne
    have hle : ((L.filter (colOk limit now f info)).map Prod.fst).length ≤ s.col.length := by omega
    have hnd : ((L.filter (colOk limit now f info)).map Prod.fst).Nodup := h1.sublist (List.filter_sublist.map _)
    exact hno (nodup_subset_full hnd hi.col.nd (fun p hp => hi.col.sub p hp) hle id hE)
  · rw [better_iff, hi.col.best id hE hno y hy] at hb
    exact absurd hb (by simp)

/-- C75: the hugepages named are at most 64, all of them want a name, and one that wants a name is left out only if
there are 64. -/
theorem select_names (hN : 2 ≤ N) (hH : H.Lawful IsHeap) {f : F} {g : Gh} (h : Filler.Reach N mode f g) (ht : g.treat = none)
    (limit now : Nat) (info : Nat → Info) {s : Sel} (hs : select H N mode limit now f info = some s) :
    s.tag.Nodup ∧ s.tag.length ≤ 64 ∧ (∀ id ∈ s.tag, WantsName limit now f info g id) ∧
    ∀ id, WantsName limit now f info g id → id ∉ s.tag → s.tag.length = 64 := by
  obtain ⟨L, s', e, h1, h2, hi⟩ := select_all hN hH h ht limit now info
  rw [hs] at e
  obtain rfl := Option.some.inj e
  have hel : ∀ id, id ∈ (L.filter (tagOk limit now info)).map Prod.fst ↔ WantsName limit now f info g id := by
    intro id
    rw [List.mem_map]
    unfold WantsName
    constructor
    · rintro ⟨v, hv, rfl⟩
      obtain ⟨hv, hc⟩ := List.mem_filter.1 hv
      obtain ⟨a1, a2, a3⟩ := (h2 v).1 hv
      unfold tagOk at hc
      simp only [Bool.and_eq_true, decide_eq_true_eq] at hc
      refine ⟨a1, ?_, hc.1.2, by omega⟩
      have := hc.1.1
      rw [a2] at this
      simpa using this
    · rintro ⟨a1, a2, a3, a4⟩
      refine ⟨(id, !(f.tr id).donated, (mode || !fullyReleased N mode (f.tr id))), List.mem_filter.2 ⟨(h2 _).2 ⟨a1, rfl, rfl⟩, ?_⟩, rfl⟩
      unfold tagOk
      simp only [a2, a3, Bool.not_false, Bool.true_and, decide_eq_true_eq]
      omega
  have hnd : ((L.filter (tagOk limit now info)).map Prod.fst).Nodup := h1.sublist (List.filter_sublist.map _)
  have htag := hi.tag
  have hlen := congrArg List.length htag
  rw [List.length_take] at hlen
  unfold kTotal at hlen
  refine ⟨?_, by omega, ?_, ?_⟩
  · rw [htag]; exact hnd.sublist (List.take_sublist _ _)
  · intro id hid
    rw [htag] at hid
    exact (hel id).1 (List.mem_of_mem_take hid)
  · intro id hw hno
    apply Classical.byContradiction
    intro hne
    apply hno
    rw [htag, List.take_of_length_le (by unfold kTotal; omega)]
    exact (hel id).2 hw

end Verif.Treatment
