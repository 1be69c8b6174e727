import Verif.PageHeap.Inv
/-! The steps of the page heap on the filler, the regions and the counters keep the invariant. -/
namespace Verif.PageHeap
open Verif.HugeAddressMap Verif.HugeAllocator
open Verif.PageTracker (Alloc PT)
open Verif.HugeRegion (hlFromPages)
open Verif.Filler (upd upd_same upd_ne)
open Verif.RangeTracker (subCount)

variable {H N : Nat} {mode : Bool}

theorem new_get (hp : Nat) (d : Bool) {n : Nat} (objs : Nat) (hn : 0 < n) (hle : n ≤ N) :
    ∃ t u, PageTracker.get N (PT.new N hp d) n objs = some (t, hp * N + 0, u) := by
  obtain ⟨t, i, len, e, -, bf, -⟩ := PageTracker.get_spec (PageTracker.G.new (N := N) hp d) objs hn
    (show n ≤ (RangeTracker.clear N).longestFree from hle)
  have hi : i = 0 := by
    apply Classical.byContradiction; intro hc
    have := bf.run.left (by omega)
    have hz : Bitmap.bitAt (PT.new N hp d).free.bits (i - 1) = false := Bitmap.bitAt_empty N _
    rw [hz] at this; cases this
  subst hi
  exact ⟨t, _, e⟩

theorem K.not_tracker {s : HP} {ob : List Rng} {L : List Run} {lo : List Nat} {ex : List Rng} {dn : List Nat} {ow : PSet} {u : Nat}
    {fg : Filler.Gh} {rg : HugeRegion.Gh} {runs : List X} (k : K H N mode s ob L lo ex dn ow u fg rg runs) {r : Rng} {p : Nat}
    (hr : r ∈ runs.filterMap rawPart ∨ r ∈ ex ∨ r ∈ s.cache.taken) (hp : r.Has p) : s.trk p = none := by
  cases ht : s.trk p with
  | none => rfl
  | some id =>
    obtain ⟨h1, h2⟩ := (k.trk p id).1 ht
    have ho := k.own
    unfold owners at ho
    refine absurd hp (ho.apart (a := ⟨(s.fill.tr id).loc, 1⟩) (List.mem_map.2 ⟨id, h1, rfl⟩) (b := r) ?_ ?_)
    · simp only [List.mem_append]
      rcases hr with h | h | h
      · exact Or.inl h
      · exact Or.inr (Or.inr (Or.inr (Or.inl h)))
      · exact Or.inr (Or.inr (Or.inr (Or.inr h)))
    · unfold Rng.Has; simp only []; omega

/-- Marking as free of a tracker a hugepage that has none changes nothing. -/
theorem clear_trk {s : HP} {p : Nat} (h : s.trk p = none) : { s with trk := upd s.trk p none } = s := by
  have : upd s.trk p none = s.trk := by
    funext x
    by_cases hx : x = p
    · subst hx; rw [upd_same, h]
    · rw [upd_ne _ _ hx]
  rw [this]

theorem K.donor_mem {s : HP} {ob : List Rng} {L : List Run} {lo : List Nat} {ex : List Rng} {dn : List Nat} {ow : PSet} {u : Nat}
    {fg : Filler.Gh} {rg : HugeRegion.Gh} {runs : List X} (k : K H N mode s ob L lo ex dn ow u fg rg runs) (hN : 2 ≤ N) {id : Nat}
    (h : id ∈ runs.filterMap donor ∨ id ∈ s.puts.filterMap PendPut.donor) : id ∈ Filler.ids s.fill fg := by
  rcases h with h | h
  · obtain ⟨x, hx, hd⟩ := List.mem_filterMap.1 h
    obtain ⟨r, kd⟩ := x
    have hlive : ∀ a, fpart id (r, kd) = some a → id ∈ Filler.ids s.fill fg := by
      intro a ha
      have : a ∈ fg.live id := (k.flive id).mem_iff.2 (List.mem_filterMap.2 ⟨_, hx, ha⟩)
      exact List.mem_append_left _ (Filler.live_mem hN k.fill this).1
    cases kd with
    | fill id' a =>
      simp only [donor] at hd
      split at hd
      · cases hd; exact hlive a (by simp [fpart])
      · cases hd
    | tail hp hl id' a =>
      simp only [donor] at hd
      cases hd; exact hlive a (by simp [fpart])
    | region _ _ => simp [donor] at hd
    | whole _ _ => simp [donor] at hd
  · obtain ⟨x, hx, hd⟩ := List.mem_filterMap.1 h
    have : id = x.id := by
      unfold PendPut.donor at hd
      split at hd <;> first | (cases hd; done) | (cases hd; rfl)
    subst this
    unfold Filler.ids
    rw [k.flight]
    refine List.mem_append_right _ (List.mem_append_left _ ?_)
    simp only [List.map_map]
    exact List.mem_map.2 ⟨x, hx, rfl⟩

/-- The live runs of a tracker the filler does not have: none. -/
theorem K.live_nil {s : HP} {ob : List Rng} {L : List Run} {lo : List Nat} {ex : List Rng} {dn : List Nat} {ow : PSet} {u : Nat}
    {fg : Filler.Gh} {rg : HugeRegion.Gh} {runs : List X} (k : K H N mode s ob L lo ex dn ow u fg rg runs) (hN : 2 ≤ N) {id : Nat}
    (h : id ∉ Filler.ids s.fill fg) : fg.live id = [] ∧ runs.filterMap (fpart id) = [] := by
  have h1 : fg.live id = [] := by
    apply Classical.byContradiction; intro hc
    obtain ⟨a, ha⟩ := List.exists_mem_of_ne_nil _ hc
    exact h (List.mem_append_left _ (Filler.live_mem hN k.fill ha).1)
  refine ⟨h1, ?_⟩
  have := k.flive id
  rw [h1] at this
  exact this.nil_eq.symm

/-- `AllocAndContribute`. -/
theorem K.contribute {s : HP} {ob : List Rng} {L : List Run} {ow : PSet} {u : Nat}
    {fg : Filler.Gh} {rg : HugeRegion.Gh} {runs : List X} {x : X} {hp n objs d : Nat} {donated dense : Bool}
    (k : K H N mode s ob L [] (⟨hp, 1⟩ :: (rawPart x).toList) [] ow u fg rg runs) (hN : 2 ≤ N)
    (hn : 0 < n) (hle : n ≤ N) (hdon : donated = true → n < N ∧ dense = false) (hden : dense = true → n = 1)
    (hd : d = s.donated + if donated then 1 else 0)
    (hf : fpart s.next x = some ⟨0, n, objs⟩) (hf' : ∀ id, id ≠ s.next → fpart id x = none) (hr : ∀ id, rpart id x = none)
    (hdx : donor x = if donated then some s.next else none)
    (hv : ∀ s' : HP, (s'.fill.tr s.next).loc = hp → Valid N s' x) :
    ∃ s', HP.contribute N mode { s with donated := d } hp n objs donated dense = some s' ∧
      ∃ fg', K H N mode s' ob (x.1 :: L) [] [] [] ow u fg' rg (x :: runs) := by
  have hT : trackers s [] fg = Filler.ids s.fill fg := rfl
  have hfr : s.next ∉ Filler.ids s.fill fg := fun hc => Nat.lt_irrefl _ (k.freshF _ hc)
  have hhp : hp ≠ 0 := by
    rintro rfl
    have := (k.not_taken).2.1 0 (by unfold Rng.Has; simp)
    exact ow_nonzero k.cache this
  obtain ⟨t, w, eget⟩ := new_get (N := N) hp donated objs hn hle
  obtain ⟨f, ec, hfr', hfreed, hne, hloc⟩ := Filler.contribute_exact hN k.fill (id := s.next) (dense := dense)
    (by rw [← Filler.mem_ids]; exact hfr) eget hdon hden
  have hnd : s.next ∉ s.puts.filterMap PendPut.donor := fun hc => hfr (k.donor_mem hN (Or.inr hc))
  have hnd' : s.next ∉ runs.filterMap donor := fun hc => hfr (k.donor_mem hN (Or.inl hc))
  have hmemT : ∀ id, id ∈ s.next :: Filler.ids s.fill fg ↔ id = s.next ∨ id ∈ Filler.ids s.fill fg := fun id => List.mem_cons
  have hneT : ∀ id ∈ Filler.ids s.fill fg, id ≠ s.next := fun id hid e => hfr (e ▸ hid)
  have hids : Filler.ids f { fg with live := upd fg.live s.next [⟨0, n, objs⟩], held := s.next :: fg.held } =
      s.next :: Filler.ids s.fill fg := by
    unfold Filler.ids; rw [hfreed]; rfl
  refine ⟨{ s with donated := d, fill := f, trk := upd s.trk hp (some s.next), info := upd s.info s.next ⟨donated, if donated then n else 0, false⟩, next := s.next + 1 }, ?_, { fg with live := upd fg.live s.next [⟨0, n, objs⟩], held := s.next :: fg.held }, ?_⟩
  · unfold HP.contribute
    rw [if_neg hhp, eget]
    simp only [Nat.add_zero, if_true, ec]
  · have hT' : ∀ s' : HP, s'.fill = f → trackers s' [] { fg with live := upd fg.live s.next [⟨0, n, objs⟩], held := s.next :: fg.held } =
        s.next :: Filler.ids s.fill fg := by
      intro s' hs
      unfold trackers
      rw [hs, hids]; rfl
    exact {
      cache := k.cache, fill := hfr', regs := k.regs
      perm := by rw [List.map_cons]; exact k.perm.cons _
      own := by
        refine k.own.perm ?_
        rw [hT' _ rfl, hT]
        unfold owners
        simp only [List.map_cons]
        rw [hloc]
        have e1 : (Filler.ids s.fill fg).map (fun id => (⟨(f.tr id).loc, 1⟩ : Rng)) =
            (Filler.ids s.fill fg).map fun id => ⟨(s.fill.tr id).loc, 1⟩ := by
          refine List.map_congr_left ?_
          intro id hid; rw [hne id (hneT id hid)]
        rw [e1]
        have e2 : (x :: runs).filterMap rawPart = (rawPart x).toList ++ runs.filterMap rawPart := by
          rw [List.filterMap_cons]; cases rawPart x <;> rfl
        rw [e2, List.perm_iff_count]
        intro a
        simp only [List.count_append, List.count_cons, List.count_nil]
        omega
      nd := by rw [hT' _ rfl]; exact List.nodup_cons.2 ⟨hfr, k.nd⟩
      flight := k.flight, treat := k.treat
      freshF := fun id hid => by
        rw [hT' _ rfl] at hid
        rcases List.mem_cons.1 hid with h | h
        · rw [h]; exact Nat.lt_succ_self _
        · exact Nat.lt_succ_of_lt (k.freshF id h)
      freshR := fun id hid => Nat.lt_succ_of_lt (k.freshR id hid)
      trk := fun p id => by
        rw [hT' _ rfl]
        show upd s.trk hp (some s.next) p = some id ↔ id ∈ s.next :: Filler.ids s.fill fg ∧ (f.tr id).loc = p
        have hno : s.trk hp = none := k.not_tracker (r := ⟨hp, 1⟩) (Or.inr (Or.inl (by simp))) (by unfold Rng.Has; simp)
        by_cases hp' : p = hp
        · subst hp'
          rw [upd_same]
          constructor
          · intro h; cases h; exact ⟨by simp, hloc⟩
          · rintro ⟨h1, h2⟩
            rcases List.mem_cons.1 h1 with h | h
            · rw [h]
            · rw [hne id (hneT id h)] at h2
              have := (k.trk p id).2 ⟨h, h2⟩
              rw [hno] at this; cases this
        · rw [upd_ne _ _ hp', k.trk]
          constructor
          · rintro ⟨h1, h2⟩
            exact ⟨List.mem_cons_of_mem _ h1, by rw [hne id (hneT id h1)]; exact h2⟩
          · rintro ⟨h1, h2⟩
            rcases List.mem_cons.1 h1 with h | h
            · subst h; rw [hloc] at h2; exact absurd h2.symm hp'
            · rw [hne id (hneT id h)] at h2; exact ⟨h, h2⟩
      taken := k.taken
      flive := fun id => by
        show (upd fg.live s.next [⟨0, n, objs⟩] id).Perm _
        by_cases hid : id = s.next
        · subst hid
          rw [upd_same, List.filterMap_cons, hf, (k.live_nil hN hfr).2]
        · rw [upd_ne _ _ hid, List.filterMap_cons, hf' id hid]; exact k.flive id
      rlive := fun id hid => by
        rw [List.filterMap_cons, hr id]; exact k.rlive id hid
      valid := fun y hy => by
        rcases List.mem_cons.1 hy with h | h
        · subst h; exact hv _ hloc
        · have hvy := k.valid y h
          obtain ⟨r, kd⟩ := y
          have hfil : ∀ id' a, fpart id' (r, kd) = some a → (f.tr id').loc = (s.fill.tr id').loc := by
            intro id' a ha
            have : a ∈ fg.live id' := (k.flive id').mem_iff.2 (List.mem_filterMap.2 ⟨_, h, ha⟩)
            rw [hne id' (hneT id' (List.mem_append_left _ (Filler.live_mem hN k.fill this).1))]
          cases kd with
          | fill id' a =>
            simp only [Valid] at hvy ⊢
            rw [hfil id' a (by simp [fpart])]; exact hvy
          | tail hp' hl id' a =>
            simp only [Valid] at hvy ⊢
            rw [hfil id' a (by simp [fpart])]; exact hvy
          | region _ _ => exact hvy
          | whole _ _ => exact hvy
      pend := fun y hy => by
        have hy' : y ∈ s.puts := hy
        have := k.pend y hy'
        have hid : y.id ∈ Filler.ids s.fill fg := by
          unfold Filler.ids
          rw [k.flight]
          refine List.mem_append_right _ (List.mem_append_left _ ?_)
          simp only [List.map_map]
          exact List.mem_map.2 ⟨y, hy', rfl⟩
        unfold PendOk at this ⊢
        simp only []
        rw [hne y.id (hneT y.id hid)]; exact this
      donNd := by
        have h0 := k.donNd
        unfold donors at h0 ⊢
        rw [List.filterMap_cons, hdx]
        cases donated with
        | false => exact h0
        | true =>
          simp only [if_true]
          refine List.nodup_cons.2 ⟨?_, h0⟩
          intro hc
          rcases List.mem_append.1 hc with h | h
          · exact hnd' h
          · rcases List.mem_append.1 h with h | h
            · exact hnd h
            · cases h
      donOk := fun id hid => by
        show (upd s.info s.next ⟨donated, if donated then n else 0, false⟩ id).donated = true ∧
          (upd s.info s.next ⟨donated, if donated then n else 0, false⟩ id).abandoned = false
        by_cases hid' : id = s.next
        · subst hid'
          rw [upd_same]
          refine ⟨?_, rfl⟩
          cases donated with
          | true => rfl
          | false =>
            exfalso
            unfold donors at hid
            rw [List.filterMap_cons, hdx] at hid
            simp only [Bool.false_eq_true, if_false, List.mem_append, List.not_mem_nil, or_false] at hid
            rcases hid with h | h
            · exact hnd' h
            · exact hnd h
        · rw [upd_ne _ _ hid']
          refine k.donOk id ?_
          unfold donors at hid ⊢
          rw [List.filterMap_cons, hdx] at hid
          cases donated with
          | false => exact hid
          | true =>
            rcases List.mem_cons.1 hid with h | h
            · exact absurd h hid'
            · exact h
      donated := by
        rw [hT' _ rfl]
        show d = _
        rw [List.countP_cons]
        simp only [upd_same]
        have e1 : (Filler.ids s.fill fg).countP (fun id => (upd s.info s.next ⟨donated, if donated then n else 0, false⟩ id).donated) =
            (Filler.ids s.fill fg).countP fun id => (s.info id).donated :=
          countP_congr_mem (fun id hid => by rw [upd_ne _ _ (hneT id hid)])
        rw [e1, hd]
        have := k.donated
        rw [hT] at this
        rw [this]
      abandoned := by
        rw [hT' _ rfl]
        show s.abandoned = _
        rw [List.map_cons, List.sum_cons]
        simp only [upd_same]
        have e1 : (Filler.ids s.fill fg).map (fun id => ab (upd s.info s.next ⟨donated, if donated then n else 0, false⟩ id)) =
            (Filler.ids s.fill fg).map fun id => ab (s.info id) :=
          List.map_congr_left (fun id hid => by rw [upd_ne _ _ (hneT id hid)])
        rw [e1]
        have := k.abandoned
        rw [hT] at this
        rw [this]; simp [ab]
      plain := fun id hid => by
        rw [hT' _ rfl] at hid
        show (upd s.info s.next ⟨donated, if donated then n else 0, false⟩ id).donated = false → _
        by_cases hid' : id = s.next
        · subst hid'
          intro hd0
          simp only [upd_same] at hd0 ⊢
          subst hd0
          exact ⟨rfl, trivial⟩
        · simp only [upd_ne _ _ hid']
          rcases List.mem_cons.1 hid with h | h
          · exact absurd h hid'
          · exact k.plain id h
      refs := k.refs }

theorem fm_cons {α β : Type} (f : α → Option β) (x : α) (l : List α) :
    (x :: l).filterMap f = (f x).toList ++ l.filterMap f := by
  rw [List.filterMap_cons]; cases f x <;> rfl

/-- `filler_.TryGet`. -/
theorem K.tryGet {s : HP} {ob : List Rng} {L : List Run} {ow : PSet} {u : Nat}
    {fg : Filler.Gh} {rg : HugeRegion.Gh} {runs : List X} (k : K H N mode s ob L [] [] [] ow u fg rg runs) (hN : 2 ≤ N)
    {n : Nat} (objs : Nat) {dense : Bool} (hn : 0 < n) (hlt : n < N) (hden : dense = true → n = 1) :
    Filler.tryGet N mode s.fill n objs dense = some (s.fill, none) ∨
    ∃ f id page rel, Filler.tryGet N mode s.fill n objs dense = some (f, some (id, page, rel)) ∧
      ∃ fg' x, K H N mode { s with fill := f } ob (⟨page, n, objs, false⟩ :: L) [] [] [] ow u fg' rg (x :: runs) := by
  rcases Filler.tryGet_exact (objs := objs) hN k.fill hn hlt hden with ⟨e, -⟩ | ⟨f, id, i, w, e, hr, -, -, -, hfreed, hne, hloc, -⟩
  · exact Or.inl e
  · right
    have hl : ∀ x, (f.tr x).loc = (s.fill.tr x).loc := by
      intro x
      by_cases hx : x = id
      · subst hx; exact hloc
      · rw [hne x hx]
    refine ⟨f, id, _, w, e, { fg with live := upd fg.live id (⟨i, n, objs⟩ :: fg.live id) },
      (⟨(s.fill.tr id).firstPage N + i, n, objs, false⟩, .fill id ⟨i, n, objs⟩), ?_⟩
    refine k.refill (f := f) (puts' := s.puts) (treat' := s.treat) (lo' := []) (ex' := []) (dn' := []) hr ?_ hl ?_ ?_ ?_ ?_ ?_ ?_ ?_ ?_ ?_
    · show (Filler.ids f _).Perm (Filler.ids s.fill fg)
      unfold Filler.ids
      rw [hfreed]
    · rw [List.map_cons]; exact k.perm.cons _
    · rw [fm_cons]; simp [rawPart]
    · exact k.flight
    · exact k.treat
    · intro j
      show (upd fg.live id (⟨i, n, objs⟩ :: fg.live id) j).Perm _
      rw [fm_cons]
      by_cases hj : j = id
      · subst hj
        rw [upd_same]
        simp only [fpart, if_true, Option.toList_some, List.cons_append, List.nil_append]
        exact (k.flive j).cons _
      · rw [upd_ne _ _ hj]
        simp only [fpart, if_neg (Ne.symm hj), Option.toList_none, List.nil_append]
        exact k.flive j
    · intro j; rw [fm_cons]; simp [rpart]
    · intro x hx
      rcases List.mem_cons.1 hx with h | h
      · subst h; exact ⟨rfl, rfl, rfl⟩
      · exact k.valid x h
    · exact k.pend
    · unfold donors; rw [fm_cons]; simp [donor]

/-- A change of the regions (and of the runs that come from them). -/
theorem K.reregs {s : HP} {ob : List Rng} {L : List Run} {ow : PSet} {u : Nat}
    {fg : Filler.Gh} {rg : HugeRegion.Gh} {runs : List X} (k : K H N mode s ob L [] [] [] ow u fg rg runs)
    {rs : HugeRegion.S} {rg' : HugeRegion.Gh} {L' : List Run} {runs' : List X} (hr : HugeRegion.Reach H N rs rg')
    (hs : HugeRegion.Shape s.regs rs) (hperm : (runs'.map Prod.fst).Perm L')
    (hraw : (runs'.filterMap rawPart).Perm (runs.filterMap rawPart))
    (hfl : ∀ id, (runs.filterMap (fpart id)).Perm (runs'.filterMap (fpart id)))
    (hrl : ∀ id ∈ s.regs.ids, (rg'.live id).Perm (runs'.filterMap (rpart id)))
    (hv : ∀ x ∈ runs', Valid N s x) (hdn : (runs'.filterMap donor).Perm (runs.filterMap donor)) :
    K H N mode { s with regs := rs } ob L' [] [] [] ow u fg rg' runs' := by
  obtain ⟨h1, h2, -⟩ := hs
  have hdp : (donors { s with regs := rs } runs' []).Perm (donors s runs []) := hdn.append (List.Perm.refl _)
  exact {
    cache := k.cache, fill := k.fill, regs := hr, perm := hperm
    own := k.own.perm (by
      show (owners s (trackers s [] fg) runs []).Perm (owners s (trackers s [] fg) runs' [])
      unfold owners
      exact (List.Perm.refl _).append (hraw.symm.append (List.Perm.refl _)))
    nd := k.nd, flight := k.flight, treat := k.treat, freshF := k.freshF
    freshR := fun id hid => k.freshR id (h1.mem_iff.1 hid)
    trk := k.trk
    taken := by
      refine k.taken.trans ((h1.symm.map _).trans (List.Perm.of_eq ?_))
      refine List.map_congr_left ?_
      intro j _
      show (⟨(s.regs.reg j).loc, H⟩ : Rng) = ⟨(rs.reg j).loc, H⟩
      rw [h2 j]
    flive := fun id => (k.flive id).trans (hfl id)
    rlive := fun id hid => hrl id (h1.mem_iff.1 hid)
    valid := fun x hx => by
      have := hv x hx
      obtain ⟨r, kd⟩ := x
      cases kd with
      | region id i =>
        refine ⟨h1.mem_iff.2 this.1, ?_, this.2.2⟩
        show r.p = (rs.reg id).loc * N + i
        rw [h2 id]; exact this.2.1
      | _ => exact this
    pend := k.pend
    donNd := hdp.nodup_iff.2 k.donNd
    donOk := fun id hid => k.donOk id (hdp.mem_iff.1 hid)
    donated := k.donated, abandoned := k.abandoned, plain := k.plain, refs := k.refs }

/-- `regions_.MaybeGet`. -/
theorem K.regionGet {s : HP} {ob : List Rng} {L : List Run} {ow : PSet} {u : Nat}
    {fg : Filler.Gh} {rg : HugeRegion.Gh} {runs : List X} (k : K H N mode s ob L [] [] [] ow u fg rg runs) (hN : 0 < N)
    {n : Nat} (objs : Nat) (hn : 0 < n) :
    (HugeRegion.S.maybeGet H N s.regs n = some (s.regs, none) ∧
      ∀ id ∈ s.regs.ids, ¬ ∃ i, RangeTracker.Free (HugeRegion.usedBy (rg.live id)) (H * N) i n) ∨
    ∃ rs id page rel, HugeRegion.S.maybeGet H N s.regs n = some (rs, some (id, page, rel)) ∧
      ∃ rg' x, K H N mode { s with regs := rs } ob (⟨page, n, objs, false⟩ :: L) [] [] [] ow u fg rg' (x :: runs) := by
  rcases HugeRegion.get_exact hN k.regs hn with ⟨h, e⟩ | ⟨rs, id, i, len, rel, e, hid, -, -, -, hr, hs⟩
  · exact Or.inl ⟨e, h⟩
  · right
    refine ⟨rs, id, _, rel, e, _, (⟨(s.regs.reg id).loc * N + i, n, objs, false⟩, .region id i), k.reregs hr hs ?_ ?_ ?_ ?_ ?_ ?_⟩
    · rw [List.map_cons]; exact k.perm.cons _
    · rw [fm_cons]; simp [rawPart]
    · intro j; rw [fm_cons]; simp [fpart]
    · intro j hj
      show (HugeRegion.upd rg.live id ((i, n) :: rg.live id) j).Perm _
      rw [fm_cons]
      by_cases hjd : j = id
      · subst hjd
        rw [HugeRegion.upd_same]
        simp only [rpart, if_true, Option.toList_some, List.cons_append, List.nil_append]
        exact (k.rlive j hj).cons _
      · rw [HugeRegion.upd_ne _ _ hjd]
        simp only [rpart, if_neg (Ne.symm hjd), Option.toList_none, List.nil_append]
        exact k.rlive j hj
    · intro x hx
      rcases List.mem_cons.1 hx with h | h
      · subst h; exact ⟨hid, rfl, rfl⟩
      · exact k.valid x h
    · rw [fm_cons]; simp [donor]

/-- `regions_.MaybePut` of a run of a region. -/
theorem K.regionPut {s : HP} {ob : List Rng} {L : List Run} {ow : PSet} {u : Nat}
    {fg : Filler.Gh} {rg : HugeRegion.Gh} {runs : List X} {r : Run} {id i : Nat}
    (k : K H N mode s ob (r :: L) [] [] [] ow u fg rg ((r, .region id i) :: runs)) (hN : 0 < N) (ok : Nat → Bool) :
    ∃ rs calls, HugeRegion.S.maybePut H N s.regs r.p r.n ok = some (rs, some (id, calls)) ∧ id ∈ s.regs.ids ∧
      ∃ rg', K H N mode { s with regs := rs } ob L [] [] [] ow u fg rg' runs ∧
        HugeRegion.Shape s.regs rs ∧
        ∀ c ∈ calls, c.i + c.n ≤ H ∧ ∀ y, c.Has y → ∀ p, p / N = y → HugeRegion.usedBy (rg'.live id) p = false := by
  obtain ⟨hid, hp, -⟩ := k.valid _ (List.mem_cons_self ..)
  have hl := k.rlive id hid
  rw [fm_cons] at hl
  simp only [rpart, if_true, Option.toList_some, List.cons_append, List.nil_append] at hl
  have hm : (i, r.n) ∈ rg.live id := hl.mem_iff.2 (by simp)
  obtain ⟨rs, calls, e, hr, hin, -, hc, hs⟩ := HugeRegion.put_exact hN k.regs hid hm ok
  rw [← hp] at e
  have he : ((rg.live id).erase (i, r.n)).Perm (runs.filterMap (rpart id)) := by
    have := hl.erase (i, r.n)
    rwa [List.erase_cons_head] at this
  refine ⟨rs, calls, e, hid, _, k.reregs hr hs ?_ ?_ ?_ ?_ ?_ ?_, hs, ?_⟩
  · have := k.perm
    rw [List.map_cons] at this
    exact this.cons_inv
  · rw [fm_cons]; simp [rawPart]
  · intro j; rw [fm_cons]; simp [fpart]
  · intro j hj
    show (HugeRegion.upd rg.live id ((rg.live id).erase (i, r.n)) j).Perm _
    by_cases hjd : j = id
    · subst hjd; rw [HugeRegion.upd_same]; exact he
    · rw [HugeRegion.upd_ne _ _ hjd]
      have := k.rlive j hj
      rw [fm_cons] at this
      simpa only [rpart, if_neg (Ne.symm hjd), Option.toList_none, List.nil_append] using this
  · intro x hx; exact k.valid x (List.mem_cons_of_mem _ hx)
  · rw [fm_cons]; simp [donor]
  · intro c hc'
    refine ⟨(hin c hc').2, fun y hy => ?_⟩
    have h1 := (hc y).1 ⟨c, hc', hy⟩
    simp only [HugeRegion.upd_same]
    exact h1.2.2

/-- `filler_.Put` of the part of a run that is in the filler. -/
theorem K.fillerPut {s : HP} {ob : List Rng} {L : List Run} {ow : PSet} {u : Nat}
    {fg : Filler.Gh} {rg : HugeRegion.Gh} {runs : List X} {x : X} {id : Nat} {a : Alloc}
    (k : K H N mode s ob (x.1 :: L) [] [] [] ow u fg rg (x :: runs)) (hN : 2 ≤ N)
    (hf : fpart id x = some a) (hf' : ∀ j, j ≠ id → fpart j x = none) (hrp : ∀ j, rpart j x = none)
    {pk : PK} (hpk : ∀ rest, PendPut.raw ⟨id, rest, pk⟩ = rawPart x ∧ PendPut.donor ⟨id, rest, pk⟩ = donor x ∧ PendOk s ⟨id, rest, pk⟩) :
    ∃ f r, Filler.put N mode s.fill id ((s.fill.tr id).loc * N + a.i) a.n a.objs = some (f, r) ∧
      (∀ y, (f.tr y).loc = (s.fill.tr y).loc) ∧ id ∈ Filler.ids s.fill fg ∧ ∃ fg',
      ((∃ rest, r = .wait rest ∧ K H N mode { s with fill := f, puts := ⟨id, rest, pk⟩ :: s.puts } ob L [] [] [] ow u fg' rg runs) ∨
       (r = .done none ∧ id ∈ Filler.ids f fg' ∧ K H N mode { s with fill := f } ob L [] (rawPart x).toList (donor x).toList ow u fg' rg runs) ∨
       (r = .done (some id) ∧ (f.tr id).free.nused = 0 ∧
          K H N mode { s with fill := f } ob L [id] (rawPart x).toList (donor x).toList ow u fg' rg runs)) := by
  have hl := k.flive id
  rw [fm_cons, hf] at hl
  have ha : a ∈ fg.live id := hl.mem_iff.2 (by simp)
  obtain ⟨f, r, fg', e, hr, htr, hx, hperm, hloc, hcases⟩ := Filler.put_shape hN k.fill ha
  have hmem : id ∈ Filler.ids s.fill fg := List.mem_append_left _ (Filler.live_mem hN k.fill ha).1
  have hlive : ∀ j, (fg'.live j).Perm (runs.filterMap (fpart j)) := by
    intro j
    by_cases hj : j = id
    · subst hj
      exact (hperm.trans hl).cons_inv
    · rw [hx j hj]
      have := k.flive j
      rw [fm_cons, hf' j hj] at this
      exact this
  have hLp : (runs.map Prod.fst).Perm L := by
    have := k.perm
    rw [List.map_cons] at this
    exact this.cons_inv
  have hrl : ∀ j, ((x :: runs).filterMap (rpart j)).Perm (runs.filterMap (rpart j)) := by
    intro j; rw [fm_cons, hrp j]; exact List.Perm.refl _
  have hv : ∀ y ∈ runs, Valid N s y := fun y hy => k.valid y (List.mem_cons_of_mem _ hy)
  refine ⟨f, r, e, hloc, hmem, fg', ?_⟩
  rcases hcases with ⟨rest, er, hids, hfl⟩ | ⟨er, hids, hfl⟩ | ⟨er, hids, hfl, hz⟩
  · obtain ⟨p1, p2, p3⟩ := hpk rest
    refine Or.inl ⟨rest, er, ?_⟩
    refine k.refill (f := f) (puts' := ⟨id, rest, pk⟩ :: s.puts) (treat' := s.treat) (lo' := []) (ex' := []) (dn' := []) hr
      hids hloc hLp ?_ ?_ (htr.trans k.treat) hlive hrl hv ?_ ?_
    · rw [fm_cons, fm_cons, p1, List.perm_iff_count]
      intro b
      simp only [List.count_append]
      omega
    · rw [hfl, k.flight]; rfl
    · intro y hy
      rcases List.mem_cons.1 hy with h | h
      · subst h; exact p3
      · exact k.pend y h
    · unfold donors
      rw [fm_cons, fm_cons, p2, List.perm_iff_count]
      intro b
      simp only [List.count_append]
      omega
  · refine Or.inr (Or.inl ⟨er, hids.mem_iff.2 hmem, ?_⟩)
    refine k.refill (f := f) (puts' := s.puts) (treat' := s.treat) (lo' := []) (ex' := (rawPart x).toList) (dn' := (donor x).toList) hr
      hids hloc hLp ?_ ?_ (htr.trans k.treat) hlive hrl hv k.pend ?_
    · rw [fm_cons, List.perm_iff_count]
      intro b
      simp only [List.count_append, List.count_nil]
      omega
    · rw [hfl, k.flight]
    · unfold donors
      rw [fm_cons, List.perm_iff_count]
      intro b
      simp only [List.count_append, List.count_nil]
      omega
  · refine Or.inr (Or.inr ⟨er, hz, ?_⟩)
    refine k.refill (f := f) (puts' := s.puts) (treat' := s.treat) (lo' := [id]) (ex' := (rawPart x).toList) (dn' := (donor x).toList) hr
      hids.symm hloc hLp ?_ ?_ (htr.trans k.treat) hlive hrl hv k.pend ?_
    · rw [fm_cons, List.perm_iff_count]
      intro b
      simp only [List.count_append, List.count_nil]
      omega
    · rw [hfl, k.flight]
    · unfold donors
      rw [fm_cons, List.perm_iff_count]
      intro b
      simp only [List.count_append, List.count_nil]
      omega

/-- The kernel's answer to a waiting `filler_.Put`. -/
theorem K.fillerAnswer {s : HP} {ob : List Rng} {L : List Run} {ow : PSet} {u : Nat}
    {fg : Filler.Gh} {rg : HugeRegion.Gh} {runs : List X} {A B : List PendPut} {x : PendPut}
    (k : K H N mode s ob L [] [] [] ow u fg rg runs) (hN : 2 ≤ N) (hp : s.puts = A ++ x :: B) (ok : Bool) :
    ∃ f r, Filler.putAnswer N mode s.fill x.id x.rest ok = some (f, .done r) ∧ (∀ y, (f.tr y).loc = (s.fill.tr y).loc) ∧ ∃ fg',
      ((r = none ∧ x.id ∈ Filler.ids f fg' ∧
          K H N mode { s with fill := f, puts := A ++ B } ob L [] x.raw.toList x.donor.toList ow u fg' rg runs) ∨
       (r = some x.id ∧ (f.tr x.id).free.nused = 0 ∧
          K H N mode { s with fill := f, puts := A ++ B } ob L [x.id] x.raw.toList x.donor.toList ow u fg' rg runs)) := by
  have hfl : fg.flight = A.map (fun x => (x.id, x.rest)) ++ (x.id, x.rest) :: B.map (fun x => (x.id, x.rest)) := by
    rw [k.flight, hp]; simp
  obtain ⟨f, r, e, hr, hloc, hcases⟩ := Filler.answer_shape hN k.fill hfl ok
  have hmem : x.id ∈ Filler.ids s.fill fg := by
    unfold Filler.ids
    rw [hfl]
    simp
  have hpd : ∀ y ∈ A ++ B, PendOk s y := by
    intro y hy
    refine k.pend y ?_
    rw [hp]
    rcases List.mem_append.1 hy with h | h <;> simp [h]
  have hraw : (runs.filterMap rawPart ++ ((A ++ B).filterMap PendPut.raw ++ x.raw.toList)).Perm
      (runs.filterMap rawPart ++ (s.puts.filterMap PendPut.raw ++ [])) := by
    rw [hp, List.filterMap_append, List.filterMap_append, fm_cons, List.perm_iff_count]
    intro b
    simp only [List.count_append, List.count_nil]
    omega
  have hdn : (runs.filterMap donor ++ ((A ++ B).filterMap PendPut.donor ++ x.donor.toList)).Perm (donors s runs []) := by
    unfold donors
    rw [hp, List.filterMap_append, List.filterMap_append, fm_cons, List.perm_iff_count]
    intro b
    simp only [List.count_append, List.count_nil]
    omega
  refine ⟨f, r, e, hloc, { fg with flight := A.map (fun x => (x.id, x.rest)) ++ B.map (fun x => (x.id, x.rest)) }, ?_⟩
  rcases hcases with ⟨er, hids⟩ | ⟨er, hids, hz⟩
  · refine Or.inl ⟨er, hids.mem_iff.2 hmem, ?_⟩
    exact k.refill (f := f) (puts' := A ++ B) (treat' := s.treat) (lo' := []) (ex' := x.raw.toList) (dn' := x.donor.toList) hr
      hids hloc k.perm hraw (by simp) k.treat k.flive (fun _ => List.Perm.refl _) k.valid hpd hdn
  · refine Or.inr ⟨er, hz, ?_⟩
    exact k.refill (f := f) (puts' := A ++ B) (treat' := s.treat) (lo' := [x.id]) (ex' := x.raw.toList) (dn' := x.donor.toList) hr
      hids.symm hloc k.perm hraw (by simp) k.treat k.flive (fun _ => List.Perm.refl _) k.valid hpd hdn

theorem sum_upd {f g : Nat → Nat} {id : Nat} : ∀ {l : List Nat}, l.Nodup → id ∈ l → (∀ j, j ≠ id → f j = g j) →
    (l.map f).sum + g id = (l.map g).sum + f id
  | [], _, h, _ => by simp at h
  | a :: l, hnd, h, hne => by
    rw [List.nodup_cons] at hnd
    simp only [List.map_cons, List.sum_cons]
    rcases List.mem_cons.1 h with e | e
    · subst e
      have : l.map f = l.map g := List.map_congr_left (fun j hj => hne j (fun e => hnd.1 (e ▸ hj)))
      rw [this]; omega
    · have := sum_upd hnd.2 e hne
      have : a ≠ id := fun h => hnd.1 (h ▸ e)
      rw [hne a this]; omega

/-- The pages of a donated hugepage are abandoned. -/
theorem K.abandon {s : HP} {ob : List Rng} {L : List Run} {ex : List Rng} {ow : PSet} {u : Nat}
    {fg : Filler.Gh} {rg : HugeRegion.Gh} {runs : List X} {id : Nat}
    (k : K H N mode s ob L [] ex [id] ow u fg rg runs) (hid : id ∈ Filler.ids s.fill fg) :
    K H N mode (s.abandon id) ob L [] ex [] ow u fg rg runs := by
  have hflag := k.donOk id (by unfold donors; simp)
  have hnd := k.donNd
  have hdp : (donors s runs [id]).Perm (id :: donors s runs []) := by
    unfold donors
    rw [List.perm_iff_count]
    intro b
    simp only [List.count_append, List.count_cons, List.count_nil]
    omega
  have hnd' := List.nodup_cons.1 (hdp.nodup_iff.1 hnd)
  have hdd : ∀ j, (upd s.info id { s.info id with abandoned := true } j).donated = (s.info j).donated := by
    intro j
    by_cases hj : j = id
    · subst hj; rw [upd_same]
    · rw [upd_ne _ _ hj]
  exact {
    cache := k.cache, fill := k.fill, regs := k.regs, perm := k.perm, own := k.own, nd := k.nd, flight := k.flight
    treat := k.treat, freshF := k.freshF, freshR := k.freshR, trk := k.trk, taken := k.taken, flive := k.flive
    rlive := k.rlive, valid := k.valid, pend := k.pend
    donNd := hnd'.2
    donOk := fun j hj => by
      have hj' : j ∈ donors s runs [] := hj
      have hne : j ≠ id := fun e => hnd'.1 (e ▸ hj')
      show (upd s.info id { s.info id with abandoned := true } j).donated = true ∧ _
      have := k.donOk j (hdp.mem_iff.2 (List.mem_cons_of_mem _ hj'))
      refine ⟨by rw [hdd]; exact this.1, ?_⟩
      show (upd s.info id { s.info id with abandoned := true } j).abandoned = false
      rw [upd_ne _ _ hne]; exact this.2
    donated := by
      show s.donated = List.countP (fun j => (upd s.info id { s.info id with abandoned := true } j).donated) _
      simp only [hdd]; exact k.donated
    abandoned := by
      show s.abandoned + (s.info id).count = _
      have := sum_upd (f := fun j => ab (upd s.info id { s.info id with abandoned := true } j)) (g := fun j => ab (s.info j))
        (id := id) k.nd (show id ∈ trackers s [] fg from hid) (fun j hj => by simp only [upd_ne _ _ hj])
      simp only [upd_same] at this
      have e1 : ab (s.info id) = 0 := by unfold ab; rw [hflag.2]; rfl
      have e2 : ab { s.info id with abandoned := true } = (s.info id).count := rfl
      rw [e1] at this
      have e3 := this.trans (congrArg _ e2)
      have h0 := k.abandoned
      refine Eq.trans ?_ e3.symm
      exact congrArg (· + _) h0
    plain := fun j hj => by
      show (upd s.info id { s.info id with abandoned := true } j).donated = false → _
      rw [hdd]
      intro h
      have hne : j ≠ id := by rintro rfl; rw [hflag.1] at h; cases h
      have := k.plain j hj h
      show (upd s.info id { s.info id with abandoned := true } j).count = 0 ∧ (upd s.info id { s.info id with abandoned := true } j).abandoned = false
      rw [upd_ne _ _ hne]; exact this
    refs := k.refs }

/-- A tracker handed over by the filler is deleted; its hugepage is in hand. -/
theorem K.drop {s : HP} {ob : List Rng} {L : List Run} {ex : List Rng} {dn : List Nat} {ow : PSet} {u : Nat}
    {fg : Filler.Gh} {rg : HugeRegion.Gh} {runs : List X} {id : Nat} (k : K H N mode s ob L [id] ex dn ow u fg rg runs)
    (hN : 2 ≤ N) {d c : Nat} {inf : Nat → Info} (hd : d + (if (s.info id).donated then 1 else 0) = s.donated)
    (hc : c + ab (s.info id) = s.abandoned) (hi : ∀ j, j ≠ id → inf j = s.info j) :
    K H N mode { s with donated := d, abandoned := c, info := inf, trk := upd s.trk (s.fill.tr id).loc none } ob L []
      (⟨(s.fill.tr id).loc, 1⟩ :: ex) [] ow u fg rg runs := by
  have hT : trackers s [id] fg = id :: Filler.ids s.fill fg := rfl
  have hnd := List.nodup_cons.1 k.nd
  have hne : ∀ j ∈ Filler.ids s.fill fg, j ≠ id := fun j hj e => hnd.1 (e ▸ hj)
  have hdn : (runs.filterMap donor ++ (s.puts.filterMap PendPut.donor ++ [])).Sublist (donors s runs dn) := by
    unfold donors
    exact (List.Sublist.refl _).append ((List.Sublist.refl _).append (List.nil_sublist _))
  have hdmem : ∀ j ∈ runs.filterMap donor ++ (s.puts.filterMap PendPut.donor ++ []), j ∈ Filler.ids s.fill fg := by
    intro j hj
    simp only [List.append_nil, List.mem_append] at hj
    exact k.donor_mem hN hj
  exact {
    cache := k.cache, fill := k.fill, regs := k.regs, perm := k.perm
    own := k.own.perm (by
      show (owners s (trackers s [id] fg) runs ex).Perm (owners _ (Filler.ids s.fill fg) runs _)
      rw [hT]
      unfold owners
      rw [List.map_cons, List.perm_iff_count]
      intro a
      simp only [List.count_append, List.count_cons]
      omega)
    nd := hnd.2, flight := k.flight, treat := k.treat
    freshF := fun j hj => k.freshF j (List.mem_cons_of_mem _ hj)
    freshR := k.freshR
    trk := fun p j => by
      show upd s.trk (s.fill.tr id).loc none p = some j ↔ j ∈ Filler.ids s.fill fg ∧ (s.fill.tr j).loc = p
      by_cases hp : p = (s.fill.tr id).loc
      · subst hp
        rw [upd_same]
        constructor
        · intro h; cases h
        · rintro ⟨h1, h2⟩
          exfalso
          have e1 := (k.trk (s.fill.tr id).loc j).2 ⟨List.mem_cons_of_mem _ h1, h2⟩
          have e2 := (k.trk (s.fill.tr id).loc id).2 ⟨List.mem_cons_self .., rfl⟩
          rw [e1] at e2
          cases e2
          exact hnd.1 h1
      · rw [upd_ne _ _ hp, k.trk, hT]
        constructor
        · rintro ⟨h1, h2⟩
          rcases List.mem_cons.1 h1 with h | h
          · subst h; exact absurd h2.symm hp
          · exact ⟨h, h2⟩
        · rintro ⟨h1, h2⟩
          exact ⟨List.mem_cons_of_mem _ h1, h2⟩
    taken := k.taken, flive := k.flive, rlive := k.rlive, valid := k.valid, pend := k.pend
    donNd := hdn.nodup k.donNd
    donOk := fun j hj => by
      show (inf j).donated = true ∧ (inf j).abandoned = false
      rw [hi j (hne j (hdmem j hj))]
      exact k.donOk j (hdn.subset hj)
    donated := by
      show d = (Filler.ids s.fill fg).countP fun j => (inf j).donated
      have h0 := k.donated
      rw [hT, List.countP_cons] at h0
      rw [countP_congr_mem (q := fun j => (s.info j).donated) (fun j hj => by rw [hi j (hne j hj)])]
      omega
    abandoned := by
      show c = ((Filler.ids s.fill fg).map fun j => ab (inf j)).sum
      have h0 := k.abandoned
      rw [hT, List.map_cons, List.sum_cons] at h0
      rw [List.map_congr_left (g := fun j => ab (s.info j)) (fun j hj => by rw [hi j (hne j hj)])]
      omega
    plain := fun j hj => by
      show (inf j).donated = false → (inf j).count = 0 ∧ (inf j).abandoned = false
      rw [hi j (hne j hj)]
      exact k.plain j (List.mem_cons_of_mem _ hj)
    refs := k.refs }

end Verif.PageHeap
