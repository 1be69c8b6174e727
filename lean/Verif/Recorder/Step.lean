import Verif.Recorder.Inv
namespace Verif.Recorder

variable {tr : Trace} {s s' : St} {L D : List Nat}

theorem upd_iter {s : St} {t u : Nat} {x : Th} {p : Nat} {out : List (Nat × Nat)} (h : upd s.th t x u = .iter p out) :
    (u = t ∧ x = .iter p out) ∨ (u ≠ t ∧ s.th u = .iter p out) := by
  by_cases hu : u = t
  · rw [hu, upd_same] at h; exact Or.inl ⟨hu, h⟩
  · rw [upd_ne _ _ hu] at h; exact Or.inr ⟨hu, h⟩

theorem upd_sweep {s : St} {t u : Nat} {x : Th} {p : Nat} {cb : Option Nat} (h : upd s.th t x u = .sweep p cb) :
    (u = t ∧ x = .sweep p cb) ∨ (u ≠ t ∧ s.th u = .sweep p cb) := by
  by_cases hu : u = t
  · rw [hu, upd_same] at h; exact Or.inl ⟨hu, h⟩
  · rw [upd_ne _ _ hu] at h; exact Or.inr ⟨hu, h⟩

theorem ending_upd (h : TrOK tr s L D) {t : Nat} {x : Th} (h1 : ∀ p, s.th t ≠ .dying p) (h2 : ∀ p, x ≠ .dying p) (p : Nat) :
    ending p tr = true ↔ ∃ u, upd s.th t x u = .dying p := by
  rw [h.ending p]
  constructor
  · rintro ⟨u, hu⟩
    refine ⟨u, ?_⟩
    rw [upd_ne]
    · exact hu
    · intro hh; rw [hh] at hu; exact h1 p hu
  · rintro ⟨u, hu⟩
    by_cases hut : u = t
    · rw [hut, upd_same] at hu; exact absurd hu (h2 p)
    · rw [upd_ne _ _ hut] at hu; exact ⟨u, hu⟩

/-- A step of a thread that changes nothing but what it does next. -/
theorem Inv.quiet (I : Inv tr s L D) {t : Nat} {x : Th} {e : Ev} {o : Out} (hc : claim (s.th t) = none) (hx : claim x = none)
    (hs1 : ∀ p cb, s.th t ≠ .sweep p cb) (hs2 : ∀ p cb, x ≠ .sweep p cb) (hlv : ∀ l, liveStep l o = l)
    (he : ∀ p b, endingStep p b (e, o) = b) (hm : made [(e, o)] = []) (hcl : clearing (tr ++ [(e, o)]) = clearing tr)
    (hit : ∀ p out, x = .iter p out → ItAt (tr ++ [(e, o)]) s.next L t p out)
    (hev : ∀ u, u ≠ t → e ≠ .iterate u) (hev2 : ∀ u, e ≠ .clear u) : Inv (tr ++ [(e, o)]) { s with th := upd s.th t x } L D := by
  have hnd : ∀ p, s.th t ≠ .dying p := fun p h => by rw [h] at hc; cases hc
  have hnx : ∀ p, x ≠ .dying p := fun p h => by rw [h] at hx; cases hx
  refine ⟨⟨I.core.chL, I.core.chD, I.core.ndL, I.core.ndD, I.core.okL, I.core.sub, I.core.dead⟩, ?_, ?_, ?_, ?_⟩
  · refine ⟨fun u => ?_, fun u w p hu hw => ?_, gl_upd I.th hs1 hs2, calm_upd I.th hnx⟩
    · show TOk _ L D (upd s.th t x u)
      by_cases hu : u = t
      · rw [hu, upd_same]; cases x <;> first | trivial | (cases hx)
      · rw [upd_ne _ _ hu]; exact TOk.frame (p0 := 0) (s := s) (fun q _ => ⟨id, fun _ => ⟨rfl, rfl⟩, Iff.rfl, Iff.rfl⟩)
          (fun hh => by
            have h1 := TOk.used I.core (I.th.ok u) hh
            have h2 := I.th.ok u
            cases hth : s.th u <;> rw [hth] at hh h2 <;> simp only [claim, Option.some.injEq, reduceCtorEq] at hh <;> subst hh
            · exact h2.2.1 rfl
            · exact h2.2.1 rfl
            · exact (I.core.okL _ h2.1).1 rfl) (I.th.ok u)
    · have hu : claim (upd s.th t x u) = some p := hu
      have hw : claim (upd s.th t x w) = some p := hw
      by_cases h1 : u = t
      · rw [h1, upd_same, hx] at hu; cases hu
      by_cases h2 : w = t
      · rw [h2, upd_same, hx] at hw; cases hw
      rw [upd_ne _ _ h1] at hu
      rw [upd_ne _ _ h2] at hw
      exact I.th.inj u w p hu hw
  · refine ⟨fun p => ?_, fun p d => ?_, ?_, fun p => ?_, ?_⟩
    · rw [made_snoc, hm, List.append_nil]; exact I.trc.used p
    · rw [live_snoc, hlv]; exact I.trc.live p d
    · rw [live_snoc, hlv]; exact I.trc.nd
    · rw [ending_snoc, he]; exact ending_upd I.trc hnd hnx p
    · rw [hcl]; exact I.trc.clearing
  · intro u p out hu
    rcases upd_iter hu with ⟨rfl, h⟩ | ⟨hut, h⟩
    · exact hit p out h
    · exact ItAt.frame (I.it u p out h) [] (hev u hut) (fun _ _ => rfl)
  · intro u p cb hu
    rcases upd_sweep hu with ⟨rfl, h⟩ | ⟨hut, h⟩
    · exact absurd h (hs2 p cb)
    · exact SwAt.frame (I.sw u p cb h) [] (hev2 u) (fun _ _ => rfl) (fun _ _ => rfl) (fun _ => id) (fun q hq => (by cases hq))

/-- `Register` finds no dead sample. -/
theorem Inv.want (I : Inv tr s L D) {t d : Nat} (ht : s.th t = .idle) :
    Inv (tr ++ [(.register t d, .none)]) { s with th := upd s.th t (.want d) } L D :=
  I.quiet (by rw [ht]; rfl) rfl (fun p cb h => by rw [ht] at h; cases h) (fun p cb h => (by cases h)) (fun _ => rfl) (fun _ _ => rfl) rfl
    (by rw [clearing_snoc]) (fun p out h => (by cases h)) (fun u _ h => (by cases h)) (fun u h => (by cases h))

/-- `PopDead` revives a sample. -/
theorem Inv.pop (I : Inv tr s L D) {t d : Nat} (hg : s.gl = none) (hp : s.dead G ≠ G) :
    ∃ D', Inv (tr ++ [(.register t d, .registered t (s.dead G) d)])
      { s with dead := upd (upd s.dead G (s.dead (s.dead G))) (s.dead G) 0, data := upd s.data (s.dead G) d } L D' := by
  have C := I.core
  cases D with
  | nil => exact absurd C.chD hp
  | cons p D =>
    obtain ⟨h1, h2, h3⟩ := C.chD
    rw [h1]
    have hpL : p ∈ L := C.sub p (List.mem_cons_self ..)
    obtain ⟨hp0, hpG, hpu⟩ := C.okL p hpL
    have hnd := List.nodup_cons.1 C.ndD
    have hGne : ∀ q ∈ D, q ≠ G := fun q hq => (C.okL q (C.sub q (List.mem_cons_of_mem _ hq))).2.1
    have hdead : ∀ q, q ≠ p → q ≠ G → upd (upd s.dead G (s.dead p)) p 0 q = s.dead q := fun q a b => by
      rw [upd_ne _ _ a, upd_ne _ _ b]
    refine ⟨D, ⟨C.chL, ?_, C.ndL, hnd.2, C.okL, fun q hq => C.sub q (List.mem_cons_of_mem _ hq), fun q hq => ?_⟩, ?_, ?_, ?_, ?_⟩
    · show Chain _ G (upd _ p 0 G) D
      rw [upd_ne _ _ (fun h => hpG h.symm), upd_same]
      exact h3.congr fun q hq => hdead q (fun h => hnd.1 (h ▸ hq)) (hGne q hq)
    · show upd _ p 0 q = 0 ↔ _
      by_cases hqp : q = p
      · rw [hqp, upd_same]; exact ⟨fun _ => hnd.1, fun _ => rfl⟩
      · rw [hdead q hqp (C.okL q hq).2.1, C.dead q hq]
        exact ⟨fun h hh => h (List.mem_cons_of_mem _ hh), fun h hh => (List.mem_cons.1 hh).elim hqp h⟩
    · refine ⟨fun u => ?_, I.th.inj, I.th.gl, I.th.calm⟩
      have key : TOk ⟨s.all, s.next, upd (upd s.dead G (s.dead p)) p 0, upd s.data p d, s.used, s.cb, s.gl, s.th⟩ L D (s.th u) := by
        refine TOk.frame (s := s) (D := p :: D) (p0 := p) ?_ ?_ (I.th.ok u)
        · exact fun q hq => ⟨id, fun hqG => ⟨hdead q hq hqG, upd_ne _ _ hq⟩, Iff.rfl,
            ⟨fun h => List.mem_cons_of_mem _ h, fun h => (List.mem_cons.1 h).resolve_left hq⟩⟩
        · intro hh; exact TOk.notD C (I.th.ok u) hh (List.mem_cons_self ..)
      exact key
    · have hlv := I.trc.live
      refine ⟨fun q => by rw [made_snoc]; show _ ↔ _ ∈ _ ++ []; rw [List.append_nil]; exact I.trc.used q, fun q d' => ?_, ?_, fun q => ?_, ?_⟩
      · rw [live_snoc]
        show (q, d') ∈ (p, d) :: live tr ↔ q ∈ L ∧ q ∉ D ∧ upd s.data p d q = d'
        rw [List.mem_cons, hlv q d']
        by_cases hqp : q = p
        · rw [hqp, upd_same]
          constructor
          · rintro (h | ⟨-, h, -⟩)
            · cases h; exact ⟨hpL, hnd.1, rfl⟩
            · exact absurd (List.mem_cons_self ..) h
          · rintro ⟨-, -, h⟩; left; rw [h]
        · rw [upd_ne _ _ hqp]
          constructor
          · rintro (h | ⟨a, b, c⟩)
            · cases h; exact absurd rfl hqp
            · exact ⟨a, fun hh => b (List.mem_cons_of_mem _ hh), c⟩
          · rintro ⟨a, b, c⟩
            exact Or.inr ⟨a, fun hh => (List.mem_cons.1 hh).elim hqp b, c⟩
      · rw [live_snoc]
        show ((p, d) :: live tr).map (·.1) |>.Nodup
        rw [List.map_cons, List.nodup_cons]
        refine ⟨fun hh => ?_, I.trc.nd⟩
        obtain ⟨⟨q, d'⟩, hq, rfl⟩ := List.mem_map.1 hh
        exact ((hlv _ _).1 hq).2.1 (List.mem_cons_self ..)
      · rw [ending_snoc]; exact I.trc.ending q
      · rw [clearing_snoc]; exact I.trc.clearing
    · intro u p' out hu
      exact ItAt.frame (I.it u p' out hu) [] (fun h => (by cases h)) (fun _ _ => rfl)
    · intro u p' cb hu
      have := (I.th.gl u).2 ⟨p', cb, hu⟩
      rw [hg] at this; cases this

/-- A new sample, still private. -/
theorem Inv.new (I : Inv tr s L D) {t p d : Nat} (ht : s.th t = .want d) (hp : Pre tr (.new t p)) :
    Inv (tr ++ [(.new t p, .none)]) { s with used := p :: s.used, next := upd s.next p 0, dead := upd s.dead p 0, data := upd s.data p d,
                                             th := upd s.th t (.made p d) } L D := by
  have C := I.core
  obtain ⟨hm, hp0, hpG⟩ := hp
  have hu : p ∉ s.used := fun h => hm ((I.trc.used p).1 h)
  have hL : p ∉ L := fun h => hu (C.okL p h).2.2
  have hne : ∀ q ∈ L, q ≠ p := fun q hq h => hL (h ▸ hq)
  refine ⟨⟨C.chL.congr fun q hq => upd_ne _ _ (hne q hq), ?_, C.ndL, C.ndD, fun q hq => ?_, C.sub, fun q hq => ?_⟩, ?_, ?_, ?_, ?_⟩
  · show Chain _ G (upd s.dead p 0 G) D
    rw [upd_ne _ _ (fun h => hpG h.symm)]
    exact C.chD.congr fun q hq => upd_ne _ _ (hne q (C.sub q hq))
  · obtain ⟨a, b, c⟩ := C.okL q hq; exact ⟨a, b, List.mem_cons_of_mem _ c⟩
  · show upd s.dead p 0 q = 0 ↔ _
    rw [upd_ne _ _ (hne q hq)]; exact C.dead q hq
  · refine ThOK.upd I.th (p0 := p) rfl (fun q hq => ⟨fun h => List.mem_cons_of_mem _ h, fun _ => ⟨upd_ne _ _ hq, upd_ne _ _ hq⟩, Iff.rfl, Iff.rfl⟩)
      ⟨List.mem_cons_self .., hp0, hpG, hL, upd_same .., upd_same ..⟩ (fun q hq => by cases hq; rfl)
      (fun u _ hh => hu (TOk.used C (I.th.ok u) hh)) (gl_upd I.th (fun p cb h => by rw [ht] at h; cases h) (fun p cb h => (by cases h)))
      (calm_upd I.th (fun p h => (by cases h)))
  · refine ⟨fun q => ?_, fun q d' => ?_, ?_, fun q => ?_, ?_⟩
    · rw [made_snoc]
      show q ∈ p :: s.used ↔ q ∈ made tr ++ [p]
      rw [List.mem_cons, List.mem_append, List.mem_singleton, I.trc.used q]
      exact Or.comm
    · rw [live_snoc]
      show (q, d') ∈ live tr ↔ _ ∧ _ ∧ upd s.data p d q = d'
      rw [I.trc.live q d']
      constructor
      · rintro ⟨a, b, c⟩; exact ⟨a, b, by rw [upd_ne _ _ (hne q a)]; exact c⟩
      · rintro ⟨a, b, c⟩; rw [upd_ne _ _ (hne q a)] at c; exact ⟨a, b, c⟩
    · rw [live_snoc]; exact I.trc.nd
    · rw [ending_snoc]; exact ending_upd I.trc (fun p h => by rw [ht] at h; cases h) (fun p h => (by cases h)) q
    · rw [clearing_snoc]; exact I.trc.clearing
  · intro u p' out hu
    rcases upd_iter hu with ⟨-, h⟩ | ⟨-, h⟩
    · cases h
    · exact ItAt.frame (I.it u p' out h) [] (fun h => (by cases h)) (fun q hq => upd_ne _ _ (hne q hq))
  · intro u p' cb hu
    rcases upd_sweep hu with ⟨-, h⟩ | ⟨-, h⟩
    · cases h
    · exact SwAt.frame (I.sw u p' cb h) [] (fun h => (by cases h)) (fun q hq => upd_ne _ _ (hne q hq)) (fun q hq => upd_ne _ _ (hne q hq))
        (fun _ => id) (fun q hq => (by cases hq))

/-- `next` of a private sample is set. -/
theorem Inv.link (I : Inv tr s L D) {t p d v : Nat} {x : Th} {e : Ev} (ht : s.th t = .made p d ∨ s.th t = .push p d) (hx : x = .push p d)
    (he : (∃ u, e = .load u) ∨ ∃ u b, e = .cas u b) : Inv (tr ++ [(e, .none)]) { s with next := upd s.next p v, th := upd s.th t x } L D := by
  have C := I.core
  have hok : TOk s L D (.push p d) := by
    have := I.th.ok t
    rcases ht with h | h <;> rw [h] at this <;> exact this
  have hcl : claim (s.th t) = some p := by rcases ht with h | h <;> rw [h] <;> rfl
  have hnd : ∀ q, s.th t ≠ .dying q := fun q hh => by rcases ht with h | h <;> rw [h] at hh <;> cases hh
  have hns : ∀ q cb, s.th t ≠ .sweep q cb := fun q cb hh => by rcases ht with h | h <;> rw [h] at hh <;> cases hh
  have hne : ∀ q ∈ L, q ≠ p := fun q hq h => hok.2.2.2.1 (h ▸ hq)
  subst hx
  have hev : made [(e, Out.none)] = [] ∧ (∀ q b, endingStep q b (e, .none) = b) ∧ (clearing (tr ++ [(e, .none)]) = clearing tr) ∧
      (∀ u, e ≠ .iterate u) ∧ ∀ u, e ≠ .clear u := by
    rcases he with ⟨u, rfl⟩ | ⟨u, b, rfl⟩
    · exact ⟨rfl, fun _ _ => rfl, by rw [clearing_snoc], fun u h => (by cases h), fun u h => (by cases h)⟩
    · exact ⟨rfl, fun _ _ => rfl, by rw [clearing_snoc], fun u h => (by cases h), fun u h => (by cases h)⟩
  obtain ⟨e1, e2, e3, e4, e5⟩ := hev
  refine ⟨⟨C.chL.congr fun q hq => upd_ne _ _ (hne q hq), C.chD, C.ndL, C.ndD, C.okL, C.sub, C.dead⟩, ?_, ?_, ?_, ?_⟩
  · refine ThOK.upd I.th (p0 := p) rfl (fun q hq => ⟨id, fun _ => ⟨rfl, rfl⟩, Iff.rfl, Iff.rfl⟩) hok (fun q hq => by cases hq; rfl)
      (fun u hu hh => hu (I.th.inj u t p hh hcl)) (gl_upd I.th hns (fun p cb h => (by cases h))) (calm_upd I.th (fun p h => (by cases h)))
  · refine ⟨fun q => ?_, fun q d' => ?_, ?_, fun q => ?_, ?_⟩
    · rw [made_snoc, e1, List.append_nil]; exact I.trc.used q
    · rw [live_snoc]; exact I.trc.live q d'
    · rw [live_snoc]; exact I.trc.nd
    · rw [ending_snoc, e2]; exact ending_upd I.trc hnd (fun p h => (by cases h)) q
    · rw [e3]; exact I.trc.clearing
  · intro u p' out hu
    rcases upd_iter hu with ⟨-, h⟩ | ⟨-, h⟩
    · cases h
    · exact ItAt.frame (I.it u p' out h) [] (e4 u) (fun q hq => upd_ne _ _ (hne q hq))
  · intro u p' cb hu
    rcases upd_sweep hu with ⟨-, h⟩ | ⟨-, h⟩
    · cases h
    · exact SwAt.frame (I.sw u p' cb h) [] (e5 u) (fun q hq => upd_ne _ _ (hne q hq)) (fun _ _ => rfl)
        (fun _ => id) (fun q hq => (by cases hq))

/-- A sample is published. -/
theorem Inv.publish (I : Inv tr s L D) {t p d : Nat} {b : Bool} (ht : s.th t = .push p d) (ha : s.all = s.next p) :
    Inv (tr ++ [(.cas t b, .registered t p d)]) { s with all := p, th := upd s.th t .idle } (p :: L) D := by
  have C := I.core
  have hok := I.th.ok t
  rw [ht] at hok
  obtain ⟨h1, h2, h3, h4, h5, h6⟩ := hok
  have hcl : claim (s.th t) = some p := by rw [ht]; rfl
  have hD : p ∉ D := fun h => h4 (C.sub p h)
  refine ⟨⟨⟨rfl, h2, ha ▸ C.chL⟩, C.chD, List.nodup_cons.2 ⟨h4, C.ndL⟩, C.ndD, ?_, fun q hq => List.mem_cons_of_mem _ (C.sub q hq), ?_⟩,
    ?_, ?_, ?_, ?_⟩
  · intro q hq
    rcases List.mem_cons.1 hq with rfl | hq
    · exact ⟨h2, h3, h1⟩
    · exact C.okL q hq
  · intro q hq
    rcases List.mem_cons.1 hq with rfl | hq
    · exact ⟨fun _ => hD, fun _ => h5⟩
    · exact C.dead q hq
  · refine ThOK.upd I.th (p0 := p) rfl (fun q hq => ⟨id, fun _ => ⟨rfl, rfl⟩,
      ⟨fun h => (List.mem_cons.1 h).resolve_left hq, fun h => List.mem_cons_of_mem _ h⟩, Iff.rfl⟩) trivial (fun q hq => by cases hq)
      (fun u hu hh => hu (I.th.inj u t p hh hcl)) (gl_upd I.th (fun p cb h => by rw [ht] at h; cases h) (fun p cb h => (by cases h)))
      (calm_upd I.th (fun p h => (by cases h)))
  · refine ⟨fun q => ?_, fun q d' => ?_, ?_, fun q => ?_, ?_⟩
    · rw [made_snoc]; show _ ↔ _ ∈ _ ++ []; rw [List.append_nil]; exact I.trc.used q
    · rw [live_snoc]
      show (q, d') ∈ (p, d) :: live tr ↔ q ∈ p :: L ∧ q ∉ D ∧ s.data q = d'
      rw [List.mem_cons, List.mem_cons, I.trc.live q d']
      constructor
      · rintro (h | ⟨a, b, c⟩)
        · cases h; exact ⟨Or.inl rfl, hD, h6⟩
        · exact ⟨Or.inr a, b, c⟩
      · rintro ⟨rfl | a, b, c⟩
        · left; rw [← c, h6]
        · exact Or.inr ⟨a, b, c⟩
    · rw [live_snoc]
      show ((p, d) :: live tr).map (·.1) |>.Nodup
      rw [List.map_cons, List.nodup_cons]
      refine ⟨fun hh => ?_, I.trc.nd⟩
      obtain ⟨⟨q, d'⟩, hq, rfl⟩ := List.mem_map.1 hh
      exact h4 ((I.trc.live _ _).1 hq).1
    · rw [ending_snoc]; exact ending_upd I.trc (fun p h => by rw [ht] at h; cases h) (fun p h => (by cases h)) q
    · rw [clearing_snoc]; exact I.trc.clearing
  · intro u p' out hu
    rcases upd_iter hu with ⟨-, h⟩ | ⟨-, h⟩
    · cases h
    · exact ItAt.frame (I.it u p' out h) [p] (fun h => (by cases h)) (fun q hq => rfl)
  · intro u p' cb hu
    rcases upd_sweep hu with ⟨-, h⟩ | ⟨-, h⟩
    · cases h
    · exact SwAt.frame (I.sw u p' cb h) [p] (fun h => (by cases h)) (fun q hq => rfl) (fun _ _ => rfl)
        (fun _ => id) (fun q hq => by rw [List.mem_singleton.1 hq]; exact ⟨t, by rw [h6]⟩)

/-- `Unregister` begins. -/
theorem Inv.die (I : Inv tr s L D) {t p : Nat} {o : Out} (ht : s.th t = .idle) (hp : Pre tr (.unregister t p))
    (ho : o = .none ∨ ∃ f d, o = .disposed t f p d) : Inv (tr ++ [(.unregister t p, o)]) { s with th := upd s.th t (.dying p) } L D := by
  have C := I.core
  obtain ⟨⟨d, hl⟩, he, hcl⟩ := hp
  obtain ⟨h1, h2, -⟩ := (I.trc.live p d).1 hl
  have hg : s.gl = none := by
    have := I.trc.clearing
    rw [hcl] at this
    cases hh : s.gl with
    | none => rfl
    | some u => rw [hh] at this; cases this
  have hlv : ∀ l, liveStep l o = l := by rcases ho with rfl | ⟨f, d, rfl⟩ <;> exact fun _ => rfl
  refine ⟨⟨C.chL, C.chD, C.ndL, C.ndD, C.okL, C.sub, C.dead⟩, ?_, ?_, ?_, ?_⟩
  · refine ThOK.upd I.th (p0 := p) rfl (fun q hq => ⟨id, fun _ => ⟨rfl, rfl⟩, Iff.rfl, Iff.rfl⟩) ⟨h1, h2⟩ (fun q hq => by cases hq; rfl)
      (fun u hu hh => ?_) (gl_upd I.th (fun p cb h => by rw [ht] at h; cases h) (fun p cb h => (by cases h)))
      (fun hh => absurd hg hh)
    have hok := I.th.ok u
    cases hth : s.th u <;> rw [hth] at hh hok <;> simp only [claim, Option.some.injEq, reduceCtorEq] at hh <;> subst hh
    · exact hok.2.2.2.1 h1
    · exact hok.2.2.2.1 h1
    · have := (I.trc.ending _).2 ⟨u, hth⟩
      rw [he] at this; cases this
  · refine ⟨fun q => ?_, fun q d' => ?_, ?_, fun q => ?_, ?_⟩
    · rw [made_snoc]; show _ ↔ _ ∈ _ ++ []; rw [List.append_nil]; exact I.trc.used q
    · rw [live_snoc, hlv]; exact I.trc.live q d'
    · rw [live_snoc, hlv]; exact I.trc.nd
    · rw [ending_snoc]
      show (ending q tr || p == q) = true ↔ ∃ u, upd s.th t (.dying p) u = .dying q
      rw [Bool.or_eq_true, I.trc.ending q, beq_iff_eq]
      constructor
      · rintro (⟨u, hu⟩ | rfl)
        · exact ⟨u, by rw [upd_ne _ _ (fun h => by rw [h, ht] at hu; cases hu)]; exact hu⟩
        · exact ⟨t, upd_same ..⟩
      · rintro ⟨u, hu⟩
        by_cases hut : u = t
        · rw [hut, upd_same] at hu; cases hu; exact Or.inr rfl
        · rw [upd_ne _ _ hut] at hu; exact Or.inl ⟨u, hu⟩
    · rw [clearing_snoc]
      rcases ho with rfl | ⟨f, d, rfl⟩ <;> exact I.trc.clearing
  · intro u p' out hu
    rcases upd_iter hu with ⟨-, h⟩ | ⟨-, h⟩
    · cases h
    · exact ItAt.frame (I.it u p' out h) [] (fun h => (by cases h)) (fun q hq => rfl)
  · intro u p' cb hu
    rcases upd_sweep hu with ⟨-, h⟩ | ⟨-, h⟩
    · cases h
    · exact SwAt.frame (I.sw u p' cb h) [] (fun h => (by cases h)) (fun q hq => rfl) (fun _ _ => rfl)
        (fun _ => id) (fun q hq => (by cases hq))

/-- A live sample becomes dead. -/
theorem Core.push (C : Core s L D) {p : Nat} (h1 : p ∈ L) (h2 : p ∉ D) {s' : St} (hn : s'.next = s.next) (ha : s'.all = s.all) (hu : s'.used = s.used)
    (hd : s'.dead = upd (upd s.dead p (s.dead G)) G p) : Core s' L (p :: D) := by
  obtain ⟨hp0, hpG, hpu⟩ := C.okL p h1
  have hdead : ∀ q, q ≠ p → q ≠ G → s'.dead q = s.dead q := fun q a b => by rw [hd, upd_ne _ _ b, upd_ne _ _ a]
  have hdp : s'.dead p = s.dead G := by rw [hd, upd_ne _ _ hpG, upd_same]
  refine ⟨by rw [hn, ha]; exact C.chL, ⟨by rw [hd, upd_same], hpG, ?_⟩, C.ndL, List.nodup_cons.2 ⟨h2, C.ndD⟩, by rw [hu]; exact C.okL, ?_, fun q hq => ?_⟩
  · rw [hdp]
    exact C.chD.congr fun q hq => hdead q (fun h => h2 (h ▸ hq)) (C.okL q (C.sub q hq)).2.1
  · intro q hq
    rcases List.mem_cons.1 hq with rfl | hq
    · exact h1
    · exact C.sub q hq
  · by_cases hqp : q = p
    · rw [hqp, hdp]
      refine ⟨fun h => ?_, fun h => absurd (List.mem_cons_self ..) h⟩
      cases D with
      | nil =>
        have h3 : s.dead G = G := C.chD
        rw [h3] at h; cases h
      | cons a D =>
        have h3 : s.dead G = a := C.chD.1
        rw [h3] at h
        exact absurd h (C.okL a (C.sub a (List.mem_cons_self ..))).1
    · rw [hdead q hqp (C.okL q hq).2.1, C.dead q hq]
      exact ⟨fun h hh => (List.mem_cons.1 hh).elim hqp h, fun h hh => h (List.mem_cons_of_mem _ hh)⟩

theorem live_push (T : TrOK tr s L D) {p t : Nat} {cb : Option (Nat × Nat)} {e : Ev} (q d : Nat) :
    (q, d) ∈ live (tr ++ [(e, .buried t p cb)]) ↔ q ∈ L ∧ q ∉ p :: D ∧ s.data q = d := by
  rw [live_snoc]
  show (q, d) ∈ (live tr).filter _ ↔ _
  rw [List.mem_filter, T.live q d]
  simp only [bne_iff_ne, List.mem_cons, not_or]
  constructor
  · rintro ⟨⟨a, b, c⟩, e⟩; exact ⟨a, ⟨e, b⟩, c⟩
  · rintro ⟨a, ⟨e, b⟩, c⟩; exact ⟨⟨a, b, c⟩, e⟩

theorem nd_push (T : TrOK tr s L D) {p t : Nat} {cb : Option (Nat × Nat)} {e : Ev} :
    ((live (tr ++ [(e, .buried t p cb)])).map (·.1)).Nodup := by
  rw [live_snoc]
  exact List.Nodup.sublist (List.Sublist.map _ List.filter_sublist) T.nd

/-- `Unregister` takes effect. -/
theorem Inv.bury (I : Inv tr s L D) {t p : Nat} (ht : s.th t = .dying p) (hg : s.gl = none) :
    Inv (tr ++ [(.bury t, .buried t p none)]) { s with dead := upd (upd s.dead p (s.dead G)) G p, th := upd s.th t .idle } L (p :: D) := by
  have C := I.core
  obtain ⟨h1, h2⟩ := (ht ▸ I.th.ok t : TOk s L D (.dying p))
  have hcl : claim (s.th t) = some p := by rw [ht]; rfl
  obtain ⟨hp0, hpG, hpu⟩ := C.okL p h1
  have hdead : ∀ q, q ≠ p → q ≠ G → upd (upd s.dead p (s.dead G)) G p q = s.dead q := fun q a b => by rw [upd_ne _ _ b, upd_ne _ _ a]
  refine ⟨C.push h1 h2 rfl rfl rfl rfl, ?_, ?_, ?_, ?_⟩
  · refine ThOK.upd I.th (p0 := p) rfl (fun q hq => ⟨id, fun hG => ⟨hdead q hq hG, rfl⟩, Iff.rfl,
      ⟨fun h => (List.mem_cons.1 h).resolve_left hq, fun h => List.mem_cons_of_mem _ h⟩⟩) trivial (fun q hq => by cases hq)
      (fun u hu hh => hu (I.th.inj u t p hh hcl)) (gl_upd I.th (fun p cb h => by rw [ht] at h; cases h) (fun p cb h => (by cases h)))
      (fun hh => absurd hg hh)
  · refine ⟨fun q => ?_, live_push I.trc, nd_push I.trc, fun q => ?_, ?_⟩
    · rw [made_snoc]; show _ ↔ _ ∈ _ ++ []; rw [List.append_nil]; exact I.trc.used q
    · rw [ending_snoc]
      show (ending q tr && p != q) = true ↔ ∃ u, upd s.th t .idle u = .dying q
      rw [Bool.and_eq_true, I.trc.ending q, bne_iff_ne]
      constructor
      · rintro ⟨⟨u, hu⟩, hne⟩
        refine ⟨u, ?_⟩
        rw [upd_ne]
        · exact hu
        · intro h; rw [h, ht] at hu; cases hu; exact hne rfl
      · rintro ⟨u, hu⟩
        by_cases hut : u = t
        · rw [hut, upd_same] at hu; cases hu
        · rw [upd_ne _ _ hut] at hu
          refine ⟨⟨u, hu⟩, fun h => hut (I.th.inj u t p (by rw [hu, h]; rfl) hcl)⟩
    · rw [clearing_snoc]; exact I.trc.clearing
  · intro u p' out hu
    rcases upd_iter hu with ⟨-, h⟩ | ⟨-, h⟩
    · cases h
    · exact ItAt.frame (I.it u p' out h) [] (fun h => (by cases h)) (fun q hq => rfl)
  · intro u p' cb hu
    rcases upd_sweep hu with ⟨-, h⟩ | ⟨-, h⟩
    · cases h
    · exact SwAt.frame (I.sw u p' cb h) [] (fun h => (by cases h)) (fun q hq => rfl) (fun _ _ => rfl)
        (fun q hq => List.mem_cons_of_mem _ hq) (fun q hq => (by cases hq))

theorem Inv.setDispose (I : Inv tr s L D) (f : Option Nat) : Inv (tr ++ [(.setDispose f, .was s.cb)]) { s with cb := f } L D := by
  have C := I.core
  refine ⟨⟨C.chL, C.chD, C.ndL, C.ndD, C.okL, C.sub, C.dead⟩, ⟨fun u => ?_, I.th.inj, I.th.gl, I.th.calm⟩, ?_, ?_, ?_⟩
  · have := I.th.ok u
    show TOk _ L D (s.th u)
    cases h : s.th u <;> rw [h] at this <;> exact this
  · refine ⟨fun q => ?_, fun q d' => ?_, ?_, fun q => ?_, ?_⟩
    · rw [made_snoc]; show _ ↔ _ ∈ _ ++ []; rw [List.append_nil]; exact I.trc.used q
    · rw [live_snoc]; exact I.trc.live q d'
    · rw [live_snoc]; exact I.trc.nd
    · rw [ending_snoc]; exact I.trc.ending q
    · rw [clearing_snoc]; exact I.trc.clearing
  · intro u p' out hu
    exact ItAt.frame (I.it u p' out hu) [] (fun h => (by cases h)) (fun q hq => rfl)
  · intro u p' cb hu
    exact SwAt.frame (I.sw u p' cb hu) [] (fun h => (by cases h)) (fun q hq => rfl) (fun _ _ => rfl)
        (fun q hq => hq) (fun q hq => (by cases hq))

/-- `Iterate` begins. -/
theorem Inv.iterate (I : Inv tr s L D) {t : Nat} (ht : s.th t = .idle) :
    Inv (tr ++ [(.iterate t, .none)]) { s with th := upd s.th t (.iter s.all []) } L D := by
  refine I.quiet (by rw [ht]; rfl) rfl (fun p cb h => by rw [ht] at h; cases h) (fun p cb h => (by cases h)) (fun _ => rfl) (fun _ _ => rfl) rfl
    (by rw [clearing_snoc]) (fun p out h => ?_) (fun u hu h => hu (by cases h; rfl)) (fun u h => (by cases h))
  cases h
  refine ⟨tr, [(.iterate t, .none)], [], [], L, ⟨rfl, rfl, fun x hx => (by cases hx)⟩, rfl, I.core.chL, ⟨List.Sublist.refl _, fun p d hp => ?_, fun x hx => (by cases hx)⟩⟩
  exact ⟨((I.trc.live p d).1 hp).1, fun _ h => (by cases h)⟩

/-- `Iterate` goes on to the next sample. -/
theorem Inv.visit (I : Inv tr s L D) {t p : Nat} {out : List (Nat × Nat)} (ht : s.th t = .iter p out) (hp : p ≠ 0) :
    Inv (tr ++ [(.visit t, .none)])
      { s with th := upd s.th t (.iter (s.next p) (if s.dead p = 0 then out ++ [(p, s.data p)] else out)) } L D := by
  have C := I.core
  refine I.quiet (by rw [ht]; rfl) rfl (fun p cb h => by rw [ht] at h; cases h) (fun p cb h => (by cases h)) (fun _ => rfl) (fun _ _ => rfl) rfl
    (by rw [clearing_snoc]) (fun p' out' h => ?_) (fun u hu h => (by cases h)) (fun u h => (by cases h))
  cases h
  obtain ⟨tr0, tr1, N, V, R, i1, i2, i3, i4⟩ := I.it t p out ht
  cases R with
  | nil => exact absurd i3 hp
  | cons q R =>
    obtain ⟨rfl, hq0, hch⟩ := i3
    have hpL : p ∈ L := by rw [i2]; exact List.mem_append_right _ (List.mem_append_right _ (List.mem_cons_self ..))
    have hpV : p ∉ V := by
      have := C.ndL
      rw [i2] at this
      have := (List.nodup_append.1 (List.nodup_append.1 this).2.1).2.2
      exact fun h => this p h p (List.mem_cons_self ..) rfl
    have hmem : ∀ x, x ∈ V ++ [p] ++ R ↔ x ∈ V ++ p :: R := fun x => by rw [List.append_assoc]; rfl
    refine ⟨tr0, tr1 ++ [(.visit t, .none)], N, V ++ [p], R, i1.snoc (fun h => (by cases h)), by rw [i2, List.append_assoc]; rfl, hch, ?_⟩
    have i4' := i4.snoc (.visit t, .none)
    refine ⟨?_, fun a d ha => ?_, fun x hx => ?_⟩
    · split
      · rw [List.map_append]; exact i4.ids.append (List.Sublist.refl _)
      · exact i4.ids.trans (List.sublist_append_left ..)
    · obtain ⟨c1, c2⟩ := i4'.compl a d ha
      refine ⟨(hmem a).2 c1, fun hb hv => ?_⟩
      rcases List.mem_append.1 hv with hv | hv
      · have := c2 hb hv
        split
        · exact List.mem_append_left _ this
        · exact this
      · rw [List.mem_singleton] at hv
        subst hv
        have hlive : (a, d) ∈ live tr := by
          rw [i1.1]
          exact live_stay ha fun y hy => hb y (List.mem_append_left _ hy)
        obtain ⟨-, hD, hdat⟩ := (I.trc.live a d).1 hlive
        rw [if_pos ((C.dead a hpL).2 hD), hdat]
        exact List.mem_append_right _ (List.mem_singleton.2 rfl)
    · split at hx
      · rename_i hdead
        rcases List.mem_append.1 hx with hx | hx
        · exact i4'.sound x hx
        · rw [List.mem_singleton] at hx
          subst hx
          refine ⟨tr1.length, by rw [List.length_append]; omega, ?_⟩
          rw [List.take_append_of_le_length (Nat.le_refl _), List.take_length, ← i1.1]
          exact (I.trc.live _ _).2 ⟨hpL, (C.dead p hpL).1 hdead, rfl⟩
      · exact i4'.sound x hx

/-- `Iterate` returns. -/
theorem Inv.visitEnd (I : Inv tr s L D) {t p : Nat} {out : List (Nat × Nat)} (ht : s.th t = .iter p out) :
    Inv (tr ++ [(.visit t, .profile t out)]) { s with th := upd s.th t .idle } L D :=
  I.quiet (by rw [ht]; rfl) rfl (fun p cb h => by rw [ht] at h; cases h) (fun p cb h => (by cases h)) (fun _ => rfl) (fun _ _ => rfl) rfl
    (by rw [clearing_snoc]) (fun p out h => (by cases h)) (fun u hu h => (by cases h)) (fun u h => (by cases h))

/-- `UnregisterAll` begins. -/
theorem Inv.clear (I : Inv tr s L D) {t : Nat} (ht : s.th t = .idle) (hg : s.gl = none) (hp : Pre tr (.clear t)) :
    Inv (tr ++ [(.clear t, .none)]) { s with gl := some t, th := upd s.th t (.sweep s.all s.cb) } L D := by
  have C := I.core
  have hno : ∀ u p cb, s.th u ≠ .sweep p cb := fun u p cb h => by
    have := (I.th.gl u).2 ⟨p, cb, h⟩
    rw [hg] at this; cases this
  refine ⟨⟨C.chL, C.chD, C.ndL, C.ndD, C.okL, C.sub, C.dead⟩, ?_, ?_, ?_, ?_⟩
  · refine ThOK.upd I.th (p0 := 0) rfl (fun q hq => ⟨id, fun _ => ⟨rfl, rfl⟩, Iff.rfl, Iff.rfl⟩) trivial (fun q hq => by cases hq)
      (fun u hu hh => ?_) (fun u => ?_) (fun _ u p hh => ?_)
    · have h2 := I.th.ok u
      cases hth : s.th u <;> rw [hth] at hh h2 <;> simp only [claim, Option.some.injEq, reduceCtorEq] at hh <;> subst hh
      · exact h2.2.1 rfl
      · exact h2.2.1 rfl
      · exact (C.okL _ h2.1).1 rfl
    · show some t = some u ↔ ∃ p cb, upd s.th t _ u = .sweep p cb
      constructor
      · intro h; cases h; exact ⟨_, _, upd_same ..⟩
      · rintro ⟨p, cb, h⟩
        rcases upd_sweep h with ⟨rfl, -⟩ | ⟨-, h⟩
        · rfl
        · exact absurd h (hno u p cb)
    · have hh : upd s.th t (.sweep s.all s.cb) u = .dying p := hh
      by_cases hu : u = t
      · rw [hu, upd_same] at hh; cases hh
      · rw [upd_ne _ _ hu] at hh
        have := (I.trc.ending p).2 ⟨u, hh⟩
        rw [hp p] at this; cases this
  · refine ⟨fun q => ?_, fun q d' => ?_, ?_, fun q => ?_, ?_⟩
    · rw [made_snoc]; show _ ↔ _ ∈ _ ++ []; rw [List.append_nil]; exact I.trc.used q
    · rw [live_snoc]; exact I.trc.live q d'
    · rw [live_snoc]; exact I.trc.nd
    · rw [ending_snoc]; exact ending_upd I.trc (fun p h => by rw [ht] at h; cases h) (fun p h => (by cases h)) q
    · rw [clearing_snoc]; rfl
  · intro u p' out hu
    rcases upd_iter hu with ⟨-, h⟩ | ⟨-, h⟩
    · cases h
    · exact ItAt.frame (I.it u p' out h) [] (fun h => (by cases h)) (fun q hq => rfl)
  · intro u p' cb hu
    rcases upd_sweep hu with ⟨rfl, h⟩ | ⟨-, h⟩
    · cases h
      exact ⟨tr, [(.clear u, .none)], [], [], L, ⟨rfl, rfl, fun x hx => (by cases hx)⟩, rfl, C.chL, fun q hq => (by cases hq), fun q hq => (by cases hq)⟩
    · exact absurd h (hno u p' cb)

/-- The sweeping thread, and only it. -/
theorem Inv.sole (I : Inv tr s L D) {t p : Nat} {cb : Option Nat} (ht : s.th t = .sweep p cb) {u p' : Nat} {cb' : Option Nat}
    (hu : s.th u = .sweep p' cb') : u = t := by
  have h1 := (I.th.gl t).2 ⟨p, cb, ht⟩
  have h2 := (I.th.gl u).2 ⟨p', cb', hu⟩
  rw [h1] at h2; cases h2; rfl

theorem SwAt.next {next data : Nat → Nat} {t p : Nat} (h : SwAt tr next data L D t p) (hp : p ≠ 0) {x : Ev × Out} (hx : x.1 ≠ .clear t)
    {D' : List Nat} (hD : ∀ q ∈ D, q ∈ D') (hpD : p ∈ D') : p ∈ L ∧ SwAt (tr ++ [x]) next data L D' t (next p) := by
  obtain ⟨tr0, tr1, N, V, R, i1, i2, i3, i4, i5⟩ := h
  cases R with
  | nil => exact absurd i3 hp
  | cons q R =>
    obtain ⟨rfl, -, hch⟩ := i3
    refine ⟨by rw [i2]; exact List.mem_append_right _ (List.mem_append_right _ (List.mem_cons_self ..)), tr0, tr1 ++ [x], N, V ++ [p], R, i1.snoc hx, by rw [i2, List.append_assoc]; rfl, hch, fun a ha => ?_, fun a ha => ?_⟩
    · rcases List.mem_append.1 ha with ha | ha
      · exact hD a (i4 a ha)
      · rw [List.mem_singleton.1 ha]; exact hpD
    · obtain ⟨e, u, h⟩ := i5 a ha
      exact ⟨e, u, List.mem_append_left _ h⟩

theorem SwAt.mem {next data : Nat → Nat} {t p : Nat} (h : SwAt tr next data L D t p) (hp : p ≠ 0) : p ∈ L := by
  obtain ⟨tr0, tr1, N, V, R, i1, i2, i3, i4, i5⟩ := h
  cases R with
  | nil => exact absurd i3 hp
  | cons q R =>
    obtain ⟨rfl, -, hch⟩ := i3
    rw [i2]; exact List.mem_append_right _ (List.mem_append_right _ (List.mem_cons_self ..))

/-- `UnregisterAll` passes a dead sample. -/
theorem Inv.sweepDead (I : Inv tr s L D) {t p : Nat} {cb : Option Nat} (ht : s.th t = .sweep p cb) (hp : p ≠ 0) (hd : s.dead p ≠ 0) :
    Inv (tr ++ [(.sweep t, .none)]) { s with th := upd s.th t (.sweep (s.next p) cb) } L D := by
  have C := I.core
  have hS := I.sw t p cb ht
  have hpL := hS.mem hp
  have hpD : p ∈ D := Classical.not_not.1 fun h => hd ((C.dead p hpL).2 h)
  refine ⟨⟨C.chL, C.chD, C.ndL, C.ndD, C.okL, C.sub, C.dead⟩, ?_, ?_, ?_, ?_⟩
  · refine ThOK.upd I.th (p0 := 0) rfl (fun q hq => ⟨id, fun _ => ⟨rfl, rfl⟩, Iff.rfl, Iff.rfl⟩) trivial (fun q hq => by cases hq)
      (fun u hu hh => ?_) (fun u => ?_) (calm_upd I.th (fun p h => (by cases h)))
    · have h2 := I.th.ok u
      cases hth : s.th u <;> rw [hth] at hh h2 <;> simp only [claim, Option.some.injEq, reduceCtorEq] at hh <;> subst hh
      · exact h2.2.1 rfl
      · exact h2.2.1 rfl
      · exact (C.okL _ h2.1).1 rfl
    · show s.gl = some u ↔ ∃ p cb, upd s.th t _ u = .sweep p cb
      rw [I.th.gl u]
      constructor
      · rintro ⟨p', cb', h⟩
        rw [I.sole ht h, upd_same]; exact ⟨_, _, rfl⟩
      · rintro ⟨p', cb', h⟩
        rcases upd_sweep h with ⟨rfl, -⟩ | ⟨-, h⟩
        · exact ⟨_, _, ht⟩
        · exact ⟨_, _, h⟩
  · refine ⟨fun q => ?_, fun q d' => ?_, ?_, fun q => ?_, ?_⟩
    · rw [made_snoc]; show _ ↔ _ ∈ _ ++ []; rw [List.append_nil]; exact I.trc.used q
    · rw [live_snoc]; exact I.trc.live q d'
    · rw [live_snoc]; exact I.trc.nd
    · rw [ending_snoc]; exact ending_upd I.trc (fun p h => by rw [ht] at h; cases h) (fun p h => (by cases h)) q
    · rw [clearing_snoc]; exact I.trc.clearing
  · intro u p' out hu
    rcases upd_iter hu with ⟨-, h⟩ | ⟨-, h⟩
    · cases h
    · exact ItAt.frame (I.it u p' out h) [] (fun h => (by cases h)) (fun q hq => rfl)
  · intro u p' cb' hu
    rcases upd_sweep hu with ⟨rfl, h⟩ | ⟨hne, h⟩
    · cases h
      exact (hS.next hp (fun h => (by cases h)) (fun _ => id) hpD).2
    · exact absurd (I.sole ht h) hne

/-- `UnregisterAll` unregisters a sample. -/
theorem Inv.sweepLive (I : Inv tr s L D) {t p : Nat} {cb : Option Nat} (ht : s.th t = .sweep p cb) (hp : p ≠ 0) (hd : s.dead p = 0)
    (o : Option (Nat × Nat)) : Inv (tr ++ [(.sweep t, .buried t p o)])
      { s with dead := upd (upd s.dead p (s.dead G)) G p, th := upd s.th t (.sweep (s.next p) cb) } L (p :: D) := by
  have C := I.core
  have hS := I.sw t p cb ht
  have hpL := hS.mem hp
  have hpD : p ∉ D := (C.dead p hpL).1 hd
  obtain ⟨hp0, hpG, hpu⟩ := C.okL p hpL
  have hgl := (I.th.gl t).2 ⟨p, cb, ht⟩
  have hcalm := I.th.calm (by rw [hgl]; exact fun h => (by cases h))
  have hdead : ∀ q, q ≠ p → q ≠ G → upd (upd s.dead p (s.dead G)) G p q = s.dead q := fun q a b => by rw [upd_ne _ _ b, upd_ne _ _ a]
  refine ⟨C.push hpL hpD rfl rfl rfl rfl, ?_, ?_, ?_, ?_⟩
  · refine ThOK.upd I.th (p0 := p) rfl (fun q hq => ⟨id, fun hG => ⟨hdead q hq hG, rfl⟩, Iff.rfl,
      ⟨fun h => (List.mem_cons.1 h).resolve_left hq, fun h => List.mem_cons_of_mem _ h⟩⟩) trivial (fun q hq => by cases hq)
      (fun u hu hh => ?_) (fun u => ?_) (calm_upd I.th (fun p h => (by cases h)))
    · have h2 := I.th.ok u
      cases hth : s.th u <;> rw [hth] at hh h2 <;> simp only [claim, Option.some.injEq, reduceCtorEq] at hh <;> subst hh
      · exact h2.2.2.2.1 hpL
      · exact h2.2.2.2.1 hpL
      · exact hcalm u _ hth
    · show s.gl = some u ↔ ∃ p cb, upd s.th t _ u = .sweep p cb
      rw [I.th.gl u]
      constructor
      · rintro ⟨p', cb', h⟩
        rw [I.sole ht h, upd_same]; exact ⟨_, _, rfl⟩
      · rintro ⟨p', cb', h⟩
        rcases upd_sweep h with ⟨rfl, -⟩ | ⟨-, h⟩
        · exact ⟨_, _, ht⟩
        · exact ⟨_, _, h⟩
  · have hend : ∀ q, ending q tr = false := fun q => by
      cases hh : ending q tr with
      | false => rfl
      | true => obtain ⟨u, hu⟩ := (I.trc.ending q).1 hh; exact absurd hu (hcalm u q)
    refine ⟨fun q => ?_, live_push I.trc, nd_push I.trc, fun q => ?_, ?_⟩
    · rw [made_snoc]; show _ ↔ _ ∈ _ ++ []; rw [List.append_nil]; exact I.trc.used q
    · rw [ending_snoc]
      show (ending q tr && p != q) = true ↔ _
      rw [hend q, Bool.false_and]
      refine ⟨fun h => (by cases h), fun ⟨u, hu⟩ => ?_⟩
      have hu : upd s.th t (.sweep (s.next p) cb) u = .dying q := hu
      by_cases hut : u = t
      · rw [hut, upd_same] at hu; cases hu
      · rw [upd_ne _ _ hut] at hu; exact absurd hu (hcalm u q)
    · rw [clearing_snoc]; exact I.trc.clearing
  · intro u p' out hu
    rcases upd_iter hu with ⟨-, h⟩ | ⟨-, h⟩
    · cases h
    · exact ItAt.frame (I.it u p' out h) [] (fun h => (by cases h)) (fun q hq => rfl)
  · intro u p' cb' hu
    rcases upd_sweep hu with ⟨rfl, h⟩ | ⟨hne, h⟩
    · cases h
      exact (hS.next hp (fun h => (by cases h)) (fun _ h => List.mem_cons_of_mem _ h) (List.mem_cons_self ..)).2
    · exact absurd (I.sole ht h) hne

/-- `UnregisterAll` returns. -/
theorem Inv.sweepEnd (I : Inv tr s L D) {t p : Nat} {cb : Option Nat} (ht : s.th t = .sweep p cb) :
    Inv (tr ++ [(.sweep t, .cleared t)]) { s with gl := none, th := upd s.th t .idle } L D := by
  have C := I.core
  refine ⟨⟨C.chL, C.chD, C.ndL, C.ndD, C.okL, C.sub, C.dead⟩, ?_, ?_, ?_, ?_⟩
  · refine ThOK.upd I.th (p0 := 0) rfl (fun q hq => ⟨id, fun _ => ⟨rfl, rfl⟩, Iff.rfl, Iff.rfl⟩) trivial (fun q hq => by cases hq)
      (fun u hu hh => ?_) (fun u => ?_) (fun hh => absurd rfl hh)
    · have h2 := I.th.ok u
      cases hth : s.th u <;> rw [hth] at hh h2 <;> simp only [claim, Option.some.injEq, reduceCtorEq] at hh <;> subst hh
      · exact h2.2.1 rfl
      · exact h2.2.1 rfl
      · exact (C.okL _ h2.1).1 rfl
    · show none = some u ↔ ∃ p cb, upd s.th t _ u = .sweep p cb
      refine ⟨fun h => (by cases h), fun ⟨p', cb', h⟩ => ?_⟩
      rcases upd_sweep h with ⟨-, h⟩ | ⟨hne, h⟩
      · cases h
      · exact absurd (I.sole ht h) hne
  · refine ⟨fun q => ?_, fun q d' => ?_, ?_, fun q => ?_, ?_⟩
    · rw [made_snoc]; show _ ↔ _ ∈ _ ++ []; rw [List.append_nil]; exact I.trc.used q
    · rw [live_snoc]; exact I.trc.live q d'
    · rw [live_snoc]; exact I.trc.nd
    · rw [ending_snoc]; exact ending_upd I.trc (fun p h => by rw [ht] at h; cases h) (fun p h => (by cases h)) q
    · rw [clearing_snoc]; rfl
  · intro u p' out hu
    rcases upd_iter hu with ⟨-, h⟩ | ⟨-, h⟩
    · cases h
    · exact ItAt.frame (I.it u p' out h) [] (fun h => (by cases h)) (fun q hq => rfl)
  · intro u p' cb' hu
    rcases upd_sweep hu with ⟨-, h⟩ | ⟨hne, h⟩
    · cases h
    · exact absurd (I.sole ht h) hne

theorem Inv.init : Inv [] init [] [] := by
  refine ⟨⟨rfl, rfl, List.nodup_nil, List.nodup_nil, fun p hp => (by cases hp), fun p hp => (by cases hp), fun p hp => (by cases hp)⟩,
    ⟨fun t => trivial, fun t u p h => (by cases h), fun t => ⟨fun h => (by cases h), fun ⟨p, cb, h⟩ => (by cases h)⟩, fun h => absurd rfl h⟩,
    ⟨fun p => ⟨fun h => (by cases h), fun h => (by cases h)⟩, fun p d => ⟨fun h => (by cases h), fun h => (by cases h.1)⟩, List.nodup_nil,
      fun p => ⟨fun h => (by cases h), fun ⟨t, h⟩ => (by cases h)⟩, rfl⟩, fun t p out h => (by cases h), fun t p cb h => (by cases h)⟩

/-- The published samples. -/
def grow (L : List Nat) : Ev → Out → List Nat
  | .cas _ _, .registered _ p _ => p :: L
  | _, _ => L

theorem Inv.step (I : Inv tr s L D) {e : Ev} {o : Out} (hp : Pre tr e) (h : step s e = some (s', o)) : ∃ L' D', Inv (tr ++ [(e, o)]) s' L' D' ∧ L' = grow L e o := by
  cases e with
  | register t d =>
    simp only [Recorder.step] at h
    split at h
    · rename_i ht hg
      split at h
      · cases h; exact ⟨L, D, I.want ht, rfl⟩
      · rename_i hG
        cases h
        obtain ⟨D', I'⟩ := I.pop (t := t) (d := d) hg hG
        exact ⟨L, D', I', rfl⟩
    · cases h
  | new t p =>
    simp only [Recorder.step] at h
    split at h
    · rename_i ht; cases h; exact ⟨L, D, I.new ht hp, rfl⟩
    · cases h
  | load t =>
    simp only [Recorder.step] at h
    split at h
    · rename_i p d ht
      cases h
      exact ⟨L, D, I.link (Or.inl ht) rfl (Or.inl ⟨t, rfl⟩), rfl⟩
    · cases h
  | cas t b =>
    simp only [Recorder.step] at h
    split at h
    · rename_i p d ht
      split at h
      · rename_i ha
        cases h
        exact ⟨_, D, I.publish ht ha.1, rfl⟩
      · cases h
        have I' := I.link (v := s.all) (x := .push p d) (e := .cas t b) (Or.inr ht) rfl (Or.inr ⟨t, b, rfl⟩)
        have hth : upd s.th t (.push p d) = s.th := by
          funext u
          by_cases hu : u = t
          · rw [hu, upd_same, ht]
          · rw [upd_ne _ _ hu]
        rw [hth] at I'
        exact ⟨L, D, I', rfl⟩
    · cases h
  | unregister t p =>
    simp only [Recorder.step] at h
    split at h
    · rename_i ht
      cases h
      refine ⟨L, D, I.die ht hp ?_, rfl⟩
      split
      · exact Or.inl rfl
      · exact Or.inr ⟨_, _, rfl⟩
    · cases h
  | bury t =>
    simp only [Recorder.step] at h
    split at h
    · rename_i ht hg; cases h; exact ⟨L, _, I.bury ht hg, rfl⟩
    · cases h
  | setDispose f => cases h; exact ⟨L, D, I.setDispose f, rfl⟩
  | iterate t =>
    simp only [Recorder.step] at h
    split at h
    · rename_i ht; cases h; exact ⟨L, D, I.iterate ht, rfl⟩
    · cases h
  | visit t =>
    simp only [Recorder.step] at h
    split at h
    · rename_i p out ht
      split at h
      · cases h; exact ⟨L, D, I.visitEnd ht, rfl⟩
      · rename_i hp0
        have I' := I.visit ht hp0
        split at h
        · rename_i hd
          cases h
          rw [if_pos hd] at I'
          exact ⟨L, D, I', rfl⟩
        · rename_i hd
          cases h
          rw [if_neg hd] at I'
          exact ⟨L, D, I', rfl⟩
    · cases h
  | clear t =>
    simp only [Recorder.step] at h
    split at h
    · rename_i ht hg; cases h; exact ⟨L, D, I.clear ht hg hp, rfl⟩
    · cases h
  | sweep t =>
    simp only [Recorder.step] at h
    split at h
    · rename_i p cb ht
      split at h
      · cases h; exact ⟨L, D, I.sweepEnd ht, rfl⟩
      · rename_i hp0
        split at h
        · rename_i hd
          cases h; exact ⟨L, _, I.sweepLive ht hp0 hd _, rfl⟩
        · rename_i hd
          cases h; exact ⟨L, D, I.sweepDead ht hp0 hd, rfl⟩
    · cases h

end Verif.Recorder
