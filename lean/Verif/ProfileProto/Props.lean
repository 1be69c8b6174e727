import Verif.ProfileProto.Lemmas3
/-
C69: a heap, peak heap or allocation profile, written as a message and read back.
C70: the same for lifetime profiles and event traces; and the tables of the message.
-/
namespace Verif.ProfileProto

/-- Entries the code can be given. -/
def ValidProfile (f : Profile) : Prop :=
  ∀ i ∈ f.infos, Valid i.entry ∧ ∀ g, i.flags = some g → g.scan < 2 ^ 64

/-! ### Heap profiles -/

theorem toI64_getD {o : Option Nat} {v : Int} (h : o.getD 0 = toSize v) :
    toI64 (o.getD 0) = signed v := by rw [h, toI64_toSize]

theorem scanOf_getD (k : Key) (l : List Info) :
    (scanOf (l.filter fun i => keyOf i.entry = k)).getD 0 = scanPeriod k l := by
  unfold scanOf scanPeriod
  generalize ((l.filter fun i => keyOf i.entry = k).filterMap fun i => i.flags.map Flags.scan) = x
  cases x <;> rfl

theorem scanPeriod_lt {k : Key} {l : List Info}
    (h : ∀ i ∈ l, ∀ g, i.flags = some g → g.scan < 2 ^ 64) : scanPeriod k l < 2 ^ 64 := by
  unfold scanPeriod
  split
  · omega
  · rename_i s r hs
    split
    · have hm : s ∈ (l.filter fun i => keyOf i.entry = k).filterMap fun i =>
          i.flags.map Flags.scan := by rw [hs]; exact List.mem_cons_self
      obtain ⟨i, hi, he⟩ := List.mem_filterMap.1 hm
      cases hf : i.flags with
      | none => rw [hf] at he; cases he
      | some g =>
        rw [hf] at he
        cases he
        exact h i (List.mem_filter.1 hi).1 g hf
    · omega

theorem heap_values {d : Data} {l : List Info} {k : Key} (r : Bool)
    (h : DataOk d (l.filter fun i => keyOf i.entry = k)) :
    heapValues r d = (plainHeap r l k).values := by
  unfold heapValues plainHeap sumOver
  rw [h.count, h.sum, toI64_getD h.resident, toI64_getD h.swapped, toI64_getD h.stale,
    toI64_getD h.locked]

/-- What kinds of values a profile has. -/
def heapTypes (residency : Bool) : List (String × String) :=
  [("objects", "count"), ("space", "bytes")] ++
    if residency then [("resident_space", "bytes"), ("swapped_space", "bytes"),
      ("stale_space", "bytes"), ("locked_space", "bytes")] else []

theorem read_pair {p : Proto} {a b : Nat} {x y : String} (ha : p.strings[a]? = some x)
    (hb : p.strings[b]? = some y) : readPair p (a, b) = some (x, y) := by
  simp only [readPair, ha, hb]

theorem makeHeap_ok {drop : String} {order : List (Entry × Data) → List (Entry × Data)}
    {b : Builder} {segs : List Segment} {f : Profile} (hm : Mapped b segs)
    (ho : ∀ l, (order l).Perm l) (hv : ValidProfile f)
    (ht : f.type = .heap ∨ f.type = .peakHeap ∨ f.type = .allocations) :
    ∃ (c : Builder) (ks : List Key), makeHeap drop order b f = .ok c.p ∧ Inv c ∧ ks.Nodup ∧
      (∀ k, k ∈ ks ↔ ∃ i ∈ f.infos, keyOf i.entry = k) ∧
      readAll (readMapping c.p) c.p.mappings = some segs ∧
      read c.p = some
        { periodType := ("space", "bytes")
          sampleTypes := heapTypes (decide (f.type = .heap))
          defaultType := if f.type = .allocations then "objects" else "space"
          dropFrames := drop
          duration := f.duration
          time := f.time
          segments := segs
          samples := ks.map (plainHeap (decide (f.type = .heap)) f.infos) } := by
  unfold makeHeap
  obtain ⟨i1, e1, n1⟩ := names_ok (names := heapNames) hm.inv
  generalize b.internList heapNames = x at *
  obtain ⟨b1, ids⟩ := x
  dsimp only at *
  obtain ⟨i2, e2, r2, _⟩ := intern_ok i1 drop
  generalize b1.internString drop = x at *
  obtain ⟨b2, dropId⟩ := x
  dsimp only at *
  have n2 := n1.mono e2.grows
  generalize hvv : idOf ids = v at *
  have hd : ∃ dflt, defaultOf v f.type = some dflt ∧
      b2.p.strings[dflt]? = some (if f.type = .allocations then "objects" else "space") := by
    rcases ht with h | h | h <;> rw [h]
    · exact ⟨_, rfl, n2 _ (by decide)⟩
    · exact ⟨_, rfl, n2 _ (by decide)⟩
    · exact ⟨_, rfl, n2 _ (by decide)⟩
  obtain ⟨dflt, hd1, hd2⟩ := hd
  rw [hd1]
  dsimp only
  have hm0 := merged_merge f.infos
  have hperm := ho (merge f.infos)
  generalize hty : ([(v "objects", v "count"), (v "space", v "bytes")] ++
    if decide (f.type = .heap) = true then
      [(v "resident_space", v "bytes"), (v "swapped_space", v "bytes"),
       (v "stale_space", v "bytes"), (v "locked_space", v "bytes")]
    else []) = types
  have htypes : readAll (readPair b2.p) types = some (heapTypes (decide (f.type = .heap))) := by
    subst hty
    unfold heapTypes
    refine readAll_append ?_ ?_
    · exact readAll_append (readAll_one (read_pair (n2 "objects" (by decide))
        (n2 "count" (by decide)))) (readAll_one (read_pair (n2 "space" (by decide))
        (n2 "bytes" (by decide))))
    · split
      · exact readAll_append (readAll_one (read_pair (n2 "resident_space" (by decide))
          (n2 "bytes" (by decide)))) (readAll_append (readAll_one (read_pair
          (n2 "swapped_space" (by decide)) (n2 "bytes" (by decide)))) (readAll_append
          (readAll_one (read_pair (n2 "stale_space" (by decide)) (n2 "bytes" (by decide))))
          (readAll_one (read_pair (n2 "locked_space" (by decide)) (n2 "bytes" (by decide))))))
      · rfl
  have he := e1.trans e2
  have hi : ∀ (P : Nat × Nat) (D : Nat) (du : Int) (ti : Option Int) (ts : List (Nat × Nat))
      (df : Nat), Inv { b2 with p := { b2.p with
        periodType := P, dropFrames := D, duration := du,
        time := ti, sampleTypes := ts, defaultType := df } } := fun _ _ _ _ _ _ =>
    inv_congr i2 rfl rfl rfl rfl rfl rfl
  have hvalid : ∀ x ∈ order (merge f.infos), Valid x.1 := by
    intro x hx
    obtain ⟨i, h1, h2⟩ := hm0.orig x.1 x.2 (hperm.mem_iff.1 hx)
    exact h2 ▸ (hv i h1).1
  have hscan : ∀ x ∈ order (merge f.infos), x.2.scan.getD 0 =
      scanPeriod (keyOf x.1) f.infos := by
    intro x hx
    rw [(hm0.data x.1 x.2 (hperm.mem_iff.1 hx)).scan, scanOf_getD]
  have hscan' : ∀ x ∈ order (merge f.infos), x.2.scan.getD 0 < 2 ^ 64 := by
    intro x hx
    rw [hscan x hx]
    exact scanPeriod_lt fun i hi => (hv i hi).2
  obtain ⟨c, h1, h2, h3, h4⟩ := heapSamples_ok (v := v) (r := decide (f.type = .heap))
    (M := order (merge f.infos)) (L := [])
    (hi (v "space", v "bytes") dropId f.duration f.time types dflt) n2 hvalid hscan'
    (by
      have : b2.p.samples = [] := by rw [he.samples, hm.samples]
      show readAll _ b2.p.samples = _
      rw [this]
      rfl)
  have hsegs : readAll (readMapping c.p) c.p.mappings = some segs := by
    rw [h3.maps]
    show readAll _ b2.p.mappings = _
    rw [he.maps]
    exact readAll_mono (fun _ _ => (he.grows.trans ⟨h3.grows.strs, h3.grows.locs⟩).mapping) hm.segs
  have hg : Grows b2.p c.p := ⟨h3.grows.strs, h3.grows.locs⟩
  refine ⟨c, (order (merge f.infos)).map (fun x => keyOf x.1), ?_, h2, ?_, ?_, hsegs, ?_⟩
  · rw [h1]; rfl
  · exact (hperm.map _).nodup_iff.2 hm0.nodup
  · intro k
    rw [(hperm.map _).mem_iff]
    exact hm0.keys k
  · unfold read
    rw [h3.period, h3.types, h3.dflt, h3.drop, h3.duration, h3.time, hsegs, h4]
    dsimp only
    rw [hg.pair (read_pair (n2 "space" (by decide)) (n2 "bytes" (by decide))),
      readAll_mono (fun _ _ => hg.pair) htypes, hg.str hd2, hg.str r2]
    dsimp only
    rw [List.nil_append, List.map_map]
    congr 2
    apply List.map_congr_left
    intro x hx
    have hdat := hm0.data x.1 x.2 (hperm.mem_iff.1 hx)
    show (⟨_, _, _⟩ : PlainSample) = plainHeap _ _ _
    rw [heap_values _ hdat, hscan x hx]
    rfl

/-! ### Lifetime profiles -/

theorem addTypes_ok : ∀ {l : List (String × String)} {b : Builder} {T : List (String × String)},
    Inv b → readAll (readPair b.p) b.p.sampleTypes = some T →
    Inv (b.addTypes l) ∧ Grows b.p (b.addTypes l).p ∧
    (b.addTypes l).p.mappings = b.p.mappings ∧ (b.addTypes l).p.samples = b.p.samples ∧
    (b.addTypes l).p.periodType = b.p.periodType ∧
    readAll (readPair (b.addTypes l).p) (b.addTypes l).p.sampleTypes = some (T ++ l)
  | [], b, T, inv, hT => ⟨inv, .refl _, rfl, rfl, rfl, by simpa [Builder.addTypes] using hT⟩
  | (t, u) :: l, b, T, inv, hT => by
    simp only [Builder.addTypes]
    obtain ⟨i1, e1, r1, _⟩ := intern_ok inv t
    generalize b.internString t = x at *
    obtain ⟨b1, ti⟩ := x
    dsimp only at *
    obtain ⟨i2, e2, r2, _⟩ := intern_ok i1 u
    generalize b1.internString u = x at *
    obtain ⟨b2, ui⟩ := x
    dsimp only at *
    have he := e1.trans e2
    have hg : Grows b.p { b2.p with sampleTypes := b2.p.sampleTypes ++ [(ti, ui)] } :=
      ⟨he.grows.strs, he.grows.locs⟩
    have hT' : readAll (readPair { b2.p with sampleTypes := b2.p.sampleTypes ++ [(ti, ui)] })
        (b2.p.sampleTypes ++ [(ti, ui)]) = some (T ++ [(t, u)]) := by
      refine readAll_append ?_ (readAll_one (read_pair (e2.grows.str r1) r2))
      rw [he.types]
      exact readAll_mono (fun _ _ => hg.pair) hT
    obtain ⟨g1, g2, g3, g4, g5, g6⟩ := addTypes_ok (l := l)
      (b := { b2 with p := { b2.p with sampleTypes := b2.p.sampleTypes ++ [(ti, ui)] } })
      (inv_congr i2 rfl rfl rfl rfl rfl rfl) hT'
    refine ⟨g1, hg.trans g2, g3.trans he.maps, g4.trans he.samples, g5.trans he.period, ?_⟩
    rw [g6]
    simp

theorem makeLifetime_ok {drop : String} {b : Builder} {segs : List Segment} {f : Profile}
    (hm : Mapped b segs) (hv : ValidProfile f) :
    ∃ c, makeLifetime drop b f = some c ∧ Inv c ∧
      readAll (readMapping c.p) c.p.mappings = some segs ∧
      read c.p = some
        { periodType := ("space", "bytes")
          sampleTypes := [("allocated_objects", "count"), ("allocated_space", "bytes"),
            ("deallocated_objects", "count"), ("deallocated_space", "bytes"),
            ("censored_allocated_objects", "count"), ("censored_allocated_space", "bytes")]
          defaultType := "deallocated_space"
          dropFrames := drop
          duration := f.duration
          time := f.time
          segments := segs
          samples := f.infos.map fun i => plainLifetime i.entry } := by
  unfold makeLifetime
  obtain ⟨i1, e1, r1, _⟩ := intern_ok hm.inv "space"
  generalize b.internString "space" = x at *
  obtain ⟨b1, space⟩ := x
  dsimp only at *
  obtain ⟨i2, e2, r2, _⟩ := intern_ok i1 "bytes"
  generalize b1.internString "bytes" = x at *
  obtain ⟨b2, bytes⟩ := x
  dsimp only at *
  have he := e1.trans e2
  have i3 : Inv { b2 with p := { b2.p with periodType := (space, bytes) } } :=
    inv_congr i2 rfl rfl rfl rfl rfl rfl
  obtain ⟨i4, g4, m4, s4, p4, t4⟩ := addTypes_ok (l := lifetimeTypes) (T := []) i3 (by
    have : b2.p.sampleTypes = [] := by rw [he.types, hm.types]
    show readAll _ b2.p.sampleTypes = _
    rw [this]
    rfl)
  generalize Builder.addTypes { b2 with p := { b2.p with periodType := (space, bytes) } }
    lifetimeTypes = b4 at *
  obtain ⟨i5, e5, r5, _⟩ := intern_ok i4 "deallocated_space"
  generalize b4.internString "deallocated_space" = x at *
  obtain ⟨b5, dflt⟩ := x
  dsimp only at *
  obtain ⟨i6, e6, r6, _⟩ := intern_ok i5 drop
  generalize b5.internString drop = x at *
  obtain ⟨b6, dropId⟩ := x
  dsimp only at *
  have he6 := e5.trans e6
  have i7 : Inv { b6 with p := { b6.p with
      defaultType := dflt, duration := f.duration, time := f.time, dropFrames := dropId } } :=
    inv_congr i6 rfl rfl rfl rfl rfl rfl
  obtain ⟨i8, e8, n8⟩ := names_ok (names := lifetimeNames) i7
  generalize Builder.internList { b6 with p := { b6.p with
      defaultType := dflt, duration := f.duration, time := f.time, dropFrames := dropId } }
    lifetimeNames = x at *
  obtain ⟨b8, ids⟩ := x
  dsimp only at *
  have hs8 : b8.p.samples = [] := by
    rw [e8.samples]
    show b6.p.samples = []
    rw [he6.samples, s4]
    show b2.p.samples = []
    rw [he.samples, hm.samples]
  obtain ⟨c, h1, h2, h3, h4⟩ := lifetimeSamples_ok (M := f.infos.map Info.entry) (L := []) i8 n8
    (by
      intro x hx
      obtain ⟨i, hi, rfl⟩ := List.mem_map.1 hx
      exact (hv i hi).1)
    (by rw [hs8]; rfl)
  have hg6 : Grows b6.p c.p :=
    Grows.trans ⟨e8.grows.strs, e8.grows.locs⟩ h3.grows
  have hg4 : Grows b4.p c.p := he6.grows.trans hg6
  have hg2 : Grows b2.p c.p := Grows.trans ⟨g4.strs, g4.locs⟩ hg4
  have hsegs : readAll (readMapping c.p) c.p.mappings = some segs := by
    rw [h3.maps, e8.maps]
    show readAll _ b6.p.mappings = _
    rw [he6.maps, m4]
    show readAll _ b2.p.mappings = _
    rw [he.maps]
    exact readAll_mono (fun _ _ => (he.grows.trans hg2).mapping) hm.segs
  refine ⟨c, h1, h2, hsegs, ?_⟩
  have hper : c.p.periodType = (space, bytes) := by
    rw [h3.period, e8.period]
    show b6.p.periodType = _
    rw [he6.period, p4]
  have htyp : c.p.sampleTypes = b4.p.sampleTypes := by
    rw [h3.types, e8.types]
    show b6.p.sampleTypes = _
    rw [he6.types]
  have hdf : c.p.defaultType = dflt := by rw [h3.dflt, e8.dflt]
  have hdr : c.p.dropFrames = dropId := by rw [h3.drop, e8.drop]
  have hdu : c.p.duration = f.duration := by rw [h3.duration, e8.duration]
  have hti : c.p.time = f.time := by rw [h3.time, e8.time]
  unfold read
  rw [hper, htyp, hdf, hdr, hdu, hti, hsegs, h4,
    hg2.pair (read_pair (e2.grows.str r1) r2), readAll_mono (fun _ _ => hg4.pair) t4,
    hg6.str (e6.grows.str r5), hg6.str r6]
  simp only [List.nil_append, List.map_map]
  rfl

/-! ### The properties -/

/-- C69.  A heap, peak heap or allocation profile, written as a message and read back, is the
profile: whatever the order in which the merged samples are visited, there is exactly one sample
for each kind of entry (stack, sizes, alignment, hint, placement, token, guarding and function), its
values are the totals over exactly the entries of that kind, its labels describe them, and the
header and the loaded segments are those given. -/
theorem heap_profile_exact {drop : String} {order : List (Entry × Data) → List (Entry × Data)}
    {segs : List Segment} {f : Profile} (ho : ∀ l, (order l).Perm l) (hv : ValidProfile f)
    (ht : f.type = .heap ∨ f.type = .peakHeap ∨ f.type = .allocations) :
    ∃ (p : Proto) (ks : List Key), makeProto drop order segs f = .ok p ∧ ks.Nodup ∧
      (∀ k, k ∈ ks ↔ ∃ i ∈ f.infos, keyOf i.entry = k) ∧
      read p = some
        { periodType := ("space", "bytes")
          sampleTypes := [("objects", "count"), ("space", "bytes")] ++
            if f.type = .heap then [("resident_space", "bytes"), ("swapped_space", "bytes"),
              ("stale_space", "bytes"), ("locked_space", "bytes")] else []
          defaultType := if f.type = .allocations then "objects" else "space"
          dropFrames := drop
          duration := f.duration
          time := f.time
          segments := segs
          samples := ks.map (plainHeap (decide (f.type = .heap)) f.infos) } := by
  have hm : Mapped (Builder.empty.addMappings segs) segs := by
    simpa using addMappings_ok (l := segs) mapped_empty
  obtain ⟨c, ks, h1, _, h3, h4, _, h6⟩ := makeHeap_ok (drop := drop) hm ho hv ht
  refine ⟨c.p, ks, ?_, h3, h4, ?_⟩
  · unfold makeProto
    rw [if_neg (by rcases ht with h | h | h <;> rw [h] <;> decide)]
    dsimp only
    rw [if_neg (by rcases ht with h | h | h <;> rw [h] <;> decide)]
    exact h1
  · rw [h6]
    unfold heapTypes
    simp only [decide_eq_true_eq]

theorem sum_erase {ks : List Key} {k : Key} (F : Key → Int) : ks.Nodup → k ∈ ks →
    (ks.map F).sum = F k + ((ks.filter (· ≠ k)).map F).sum := by
  induction ks with
  | nil => intro _ h; cases h
  | cons a l ih =>
    intro hn hm
    simp only [List.nodup_cons] at hn
    by_cases ha : a = k
    · subst ha
      rw [List.filter_cons_of_neg (by simp)]
      have : l.filter (· ≠ a) = l := by
        rw [List.filter_eq_self]
        intro x hx
        simp only [ne_eq, decide_not, Bool.not_eq_eq_eq_not, Bool.not_true,
          decide_eq_false_iff_not]
        intro he
        exact hn.1 (he ▸ hx)
      rw [this, List.map_cons, List.sum_cons]
    · rw [List.filter_cons_of_pos (by simpa using ha)]
      rcases List.mem_cons.1 hm with h | h
      · exact absurd h.symm ha
      · simp only [List.map_cons, List.sum_cons, ih hn.2 h]
        omega

/-- The kinds partition the entries. -/
theorem sum_partition (f : Info → Int) : ∀ (l : List Info) (ks : List Key), ks.Nodup →
    (∀ i ∈ l, keyOf i.entry ∈ ks) → (ks.map fun k => sumOver k f l).sum = (l.map f).sum
  | [], ks, _, _ => by
    have : ∀ ks : List Key, (ks.map fun k => sumOver k f []).sum = 0 := by
      intro ks
      induction ks with
      | nil => rfl
      | cons a l ih =>
        rw [List.map_cons, List.sum_cons, ih]
        rfl
    exact this ks
  | i :: l, ks, hn, hm => by
    have hk := hm i List.mem_cons_self
    have ih := sum_partition f l ks hn (fun j hj => hm j (List.mem_cons_of_mem _ hj))
    have h1 := sum_erase (fun k => sumOver k f (i :: l)) hn hk
    have h2 := sum_erase (fun k => sumOver k f l) hn hk
    have h3 : sumOver (keyOf i.entry) f (i :: l) = f i + sumOver (keyOf i.entry) f l := by
      unfold sumOver
      rw [List.filter_cons_of_pos (by simp)]
      simp
    have h4 : (ks.filter (· ≠ keyOf i.entry)).map (fun k => sumOver k f (i :: l)) =
        (ks.filter (· ≠ keyOf i.entry)).map (fun k => sumOver k f l) := by
      apply List.map_congr_left
      intro k hk'
      have hne : ¬ keyOf i.entry = k := by
        have := (List.mem_filter.1 hk').2
        simp only [ne_eq, decide_not, Bool.not_eq_eq_eq_not, Bool.not_true,
          decide_eq_false_iff_not] at this
        exact fun he => this he.symm
      unfold sumOver
      rw [List.filter_cons_of_neg (by simpa using hne)]
    rw [h1, h3, h4, List.map_cons, List.sum_cons]
    omega

/-- C69.  So nothing is lost or counted twice: the objects and bytes of all samples of the message
add up to those of the profile. -/
theorem heap_totals {drop : String} {order : List (Entry × Data) → List (Entry × Data)}
    {segs : List Segment} {f : Profile} (ho : ∀ l, (order l).Perm l) (hv : ValidProfile f)
    (ht : f.type = .heap ∨ f.type = .peakHeap ∨ f.type = .allocations) :
    ∃ p x, makeProto drop order segs f = .ok p ∧ read p = some x ∧
      (x.samples.map fun s => s.values.getD 0 0).sum = (f.infos.map (·.entry.count)).sum ∧
      (x.samples.map fun s => s.values.getD 1 0).sum = (f.infos.map (·.entry.sum)).sum := by
  obtain ⟨p, ks, h1, h2, h3, h4⟩ := heap_profile_exact (drop := drop) (segs := segs) ho hv ht
  refine ⟨p, _, h1, h4, ?_, ?_⟩
  · rw [List.map_map]
    exact sum_partition _ _ _ h2 (fun i hi => (h3 _).2 ⟨i, hi, rfl⟩)
  · rw [List.map_map]
    exact sum_partition _ _ _ h2 (fun i hi => (h3 _).2 ⟨i, hi, rfl⟩)

/-- C69.  Profiles of other types are refused. -/
theorem other_types_refused {drop : String} {order : List (Entry × Data) → List (Entry × Data)}
    {segs : List Segment} {f : Profile} (ht : f.type = .fragmentation ∨ f.type = .doNotUse) :
    makeProto drop order segs f = .error := by
  unfold makeProto
  rcases ht with h | h
  · rw [if_neg (by rw [h]; decide)]
    dsimp only
    rw [if_neg (by rw [h]; decide)]
    unfold makeHeap
    dsimp only
    rw [h]
    rfl
  · rw [if_pos h]

/-- C70.  A lifetime profile or event trace, written as a message and read back, has one sample for
each entry, in order: the same stack, counted as allocated, deallocated or censored according to its
kind, with its lifetimes, places, times and handle. -/
theorem lifetime_profile_exact {drop : String}
    {order : List (Entry × Data) → List (Entry × Data)} {segs : List Segment} {f : Profile}
    (hv : ValidProfile f) (ht : f.type = .lifetimes ∨ f.type = .eventTrace) :
    ∃ p, makeProto drop order segs f = .ok p ∧
      read p = some
        { periodType := ("space", "bytes")
          sampleTypes := [("allocated_objects", "count"), ("allocated_space", "bytes"),
            ("deallocated_objects", "count"), ("deallocated_space", "bytes"),
            ("censored_allocated_objects", "count"), ("censored_allocated_space", "bytes")]
          defaultType := "deallocated_space"
          dropFrames := drop
          duration := f.duration
          time := f.time
          segments := segs
          samples := f.infos.map fun i => plainLifetime i.entry } := by
  have hm : Mapped (Builder.empty.addMappings segs) segs := by
    simpa using addMappings_ok (l := segs) mapped_empty
  obtain ⟨c, h1, _, _, h4⟩ := makeLifetime_ok (drop := drop) hm hv
  refine ⟨c.p, ?_, h4⟩
  unfold makeProto
  rw [if_neg (by rcases ht with h | h <;> rw [h] <;> decide)]
  dsimp only
  rw [if_pos ht, h1]
  rfl

/-- Two segments have no address in common. -/
def Segment.apart (a b : Segment) : Prop := a.limit ≤ b.start ∨ b.limit ≤ a.start

theorem range_map {p : Proto} : ∀ {l : List Mapping} {r : List Segment},
    readAll (readMapping p) l = some r →
    l.map (fun m => (m.start, m.limit)) = r.map fun g => (g.start, g.limit)
  | [], r, h => by
    simp only [readAll, Option.some.injEq] at h
    subst h
    rfl
  | m :: l, r, h => by
    simp only [readAll] at h
    split at h
    · rename_i x y hx hy
      cases h
      simp only [List.map_cons, range_map hy]
      unfold readMapping at hx
      split at hx
      · cases hx; rfl
      · cases hx
    · cases h

/-- C70.  The tables of the message: string 0 is empty and no string is there twice; locations and
segments are numbered from 1; no address is there twice; and every location names the loaded segment
that contains its address, or none if none does. -/
theorem tables_exact {drop : String} {order : List (Entry × Data) → List (Entry × Data)}
    {segs : List Segment} {f : Profile} {p : Proto} (ho : ∀ l, (order l).Perm l)
    (hv : ValidProfile f) (h : makeProto drop order segs f = .ok p) :
    p.strings[0]? = some "" ∧ p.strings.Nodup ∧
    p.locations.map Location.id = (List.range p.locations.length).map (· + 1) ∧
    (p.locations.map Location.addr).Nodup ∧
    p.mappings.map Mapping.id = (List.range segs.length).map (· + 1) ∧
    (segs.Pairwise Segment.apart → (∀ g ∈ segs, g.start < g.limit) → ∀ l ∈ p.locations,
      (∃ (i : Nat) (g : Segment), segs[i]? = some g ∧ l.mapping = i + 1 ∧ g.start ≤ l.addr ∧ l.addr < g.limit) ∨
      (l.mapping = 0 ∧ ∀ g ∈ segs, ¬ (g.start ≤ l.addr ∧ l.addr < g.limit))) := by
  have hm : Mapped (Builder.empty.addMappings segs) segs := by
    simpa using addMappings_ok (l := segs) mapped_empty
  have hc : ∃ c : Builder, c.p = p ∧ Inv c ∧
      readAll (readMapping c.p) c.p.mappings = some segs := by
    unfold makeProto at h
    by_cases h0 : f.type = .doNotUse
    · rw [if_pos h0] at h; cases h
    · rw [if_neg h0] at h
      dsimp only at h
      by_cases h1 : f.type = .lifetimes ∨ f.type = .eventTrace
      · rw [if_pos h1] at h
        obtain ⟨c, g1, g2, g3, _⟩ := makeLifetime_ok (drop := drop) hm hv
        rw [g1] at h
        cases h
        exact ⟨c, rfl, g2, g3⟩
      · rw [if_neg h1] at h
        by_cases h2 : f.type = .heap ∨ f.type = .peakHeap ∨ f.type = .allocations
        · obtain ⟨c, _, g1, g2, _, _, g3, _⟩ := makeHeap_ok (drop := drop) hm ho hv h2
          rw [g1] at h
          cases h
          exact ⟨c, rfl, g2, g3⟩
        · have h3 : f.type = .fragmentation := by
            cases hf : f.type <;> simp_all
          unfold makeHeap at h
          dsimp only at h
          rw [h3] at h
          cases h
  obtain ⟨c, rfl, inv, hs⟩ := hc
  have hrange := range_map hs
  have hlen : c.p.mappings.length = segs.length := by
    have := congrArg List.length hrange
    simpa using this
  refine ⟨inv.s0, ?_, ?_, ?_, ?_, ?_⟩
  · rw [List.nodup_iff_pairwise_ne, List.pairwise_iff_getElem]
    intro i j hi hj hij he
    obtain ⟨j', rfl⟩ : ∃ j', j = j' + 1 := ⟨j - 1, by omega⟩
    obtain ⟨hj1, hj2⟩ := inv.sbwd j' _ (List.getElem?_eq_getElem hj)
    cases i with
    | zero =>
      have := inv.s0
      rw [List.getElem?_eq_getElem hi] at this
      simp only [Option.some.injEq] at this
      exact hj2 (he ▸ this)
    | succ i' =>
      obtain ⟨hi1, _⟩ := inv.sbwd i' _ (List.getElem?_eq_getElem hi)
      rw [he, hj1] at hi1
      simp only [Option.some.injEq] at hi1
      omega
  · apply List.ext_getElem
    · simp
    · intro k h1 h2
      simp only [List.length_map] at h1
      simp only [List.getElem_map, List.getElem_range]
      exact inv.lids k _ (List.getElem?_eq_getElem h1)
  · rw [List.nodup_iff_pairwise_ne, List.pairwise_map, List.pairwise_iff_getElem]
    intro i j hi hj hij he
    have h1 := inv.lbwd _ (List.getElem_mem hi)
    have h2 := inv.lbwd _ (List.getElem_mem hj)
    rw [he, h2] at h1
    simp only [Option.some.injEq] at h1
    have h3 := inv.lids i _ (List.getElem?_eq_getElem hi)
    have h4 := inv.lids j _ (List.getElem?_eq_getElem hj)
    omega
  · apply List.ext_getElem
    · simp [hlen]
    · intro k h1 h2
      simp only [List.length_map] at h1
      simp only [List.getElem_map, List.getElem_range]
      exact inv.mids k _ (List.getElem?_eq_getElem h1)
  · intro hd hne l hl
    have key : ∀ (i : Nat) (m : Mapping) (g : Segment), c.p.mappings[i]? = some m → segs[i]? = some g →
        m.start = g.start ∧ m.limit = g.limit := by
      intro i m g hm' hg'
      have := congrArg (·[i]?) hrange
      simp only [List.getElem?_map, hm', hg', Option.map_some, Option.some.injEq,
        Prod.mk.injEq] at this
      exact this
    have hboth : ∀ (i : Nat) (m : Mapping), c.p.mappings[i]? = some m → ∃ g, segs[i]? = some g := by
      intro i m hm'
      have := (List.getElem?_eq_some_iff.1 hm').1
      exact ⟨_, List.getElem?_eq_getElem (by omega)⟩
    have hboth' : ∀ (i : Nat) (g : Segment), segs[i]? = some g → ∃ m, c.p.mappings[i]? = some m := by
      intro i g hg'
      have := (List.getElem?_eq_some_iff.1 hg').1
      exact ⟨_, List.getElem?_eq_getElem (by omega)⟩
    have hd' : c.p.mappings.Pairwise apart := by
      rw [List.pairwise_iff_getElem]
      intro i j hi hj hij
      have g1 := key i _ _ (List.getElem?_eq_getElem hi)
        (List.getElem?_eq_getElem (by omega : i < segs.length))
      have g2 := key j _ _ (List.getElem?_eq_getElem hj)
        (List.getElem?_eq_getElem (by omega : j < segs.length))
      have := List.pairwise_iff_getElem.1 hd i j (by omega) (by omega) hij
      unfold Segment.apart at this
      unfold apart
      omega
    have hne' : ∀ m ∈ c.p.mappings, m.start < m.limit := by
      intro m hmem
      obtain ⟨i, hi⟩ := List.getElem?_of_mem hmem
      obtain ⟨g, hg⟩ := hboth i m hi
      have := key i m g hi hg
      have := hne g (List.mem_of_getElem? hg)
      omega
    rcases mappingOf_spec inv hd' hne' (inv.lmap l hl) with ⟨m, g1, g2, g3, g4⟩ | ⟨g1, g2⟩
    · obtain ⟨i, hi⟩ := List.getElem?_of_mem g1
      obtain ⟨g, hg⟩ := hboth i m hi
      have h1 := key i m g hi hg
      have h2 := inv.mids i m hi
      exact .inl ⟨i, g, hg, by omega, by omega, by omega⟩
    · right
      refine ⟨g1, ?_⟩
      intro g hg hin
      obtain ⟨i, hi⟩ := List.getElem?_of_mem hg
      obtain ⟨m, hm'⟩ := hboth' i g hi
      have h1 := key i m g hm' hi
      exact g2 m (List.mem_of_getElem? hm') (by omega)

/-! ### Concrete profiles -/

def here : Where := ⟨some 3, some true⟩
def there : Where := ⟨none, none⟩

def e1 : Entry :=
  ⟨2, 64, 30, none, 32, false, 255, .hot, 0, .notAttempted, .malloc, [0x1001, 0x2005], 0x7000,
   false, 0, 0, 0, 0, 0, 0, 0, there, there, there, there, there⟩
def e2 : Entry := { e1 with count := 3, sum := 96, start := 0x8000 }
def e3 : Entry :=
  ⟨-1, 4096, 4000, some 64, 4096, true, 1, .cold, 1, .guarded, .new, [0x1001], 0x9000,
   false, 7, 5, 1000, 20, 1, 2, 30, here, ⟨some (-1), some false⟩, there, there, here⟩

def segs0 : List Segment := [⟨0x2000, 0x3000, 0, "/lib/b", "cd"⟩, ⟨0x1000, 0x2000, 0, "/bin/a", ""⟩]
def heap0 : Profile :=
  ⟨.heap, some 9, 0, [⟨e1, some (4096, 0), some ⟨10, 0, 5⟩⟩, ⟨e3, none, none⟩,
    ⟨e2, some (4096, 4096), some ⟨20, 1, 5⟩⟩]⟩
def trace0 : Profile := { heap0 with type := .eventTrace }

theorem e1_valid : Valid e1 := by
  constructor <;> simp [e1, guardName]
theorem e2_valid : Valid e2 := by
  constructor <;> simp [e1, e2, guardName]
theorem e3_valid : Valid e3 := by
  constructor <;> simp [e3, guardName]

theorem heap0_valid : ValidProfile heap0 := by
  intro i hi
  simp only [heap0, List.mem_cons, List.not_mem_nil, or_false] at hi
  rcases hi with rfl | rfl | rfl
  · exact ⟨e1_valid, fun g h => by cases h; simp⟩
  · exact ⟨e3_valid, fun g h => by cases h⟩
  · exact ⟨e2_valid, fun g h => by cases h; simp⟩

theorem trace0_valid : ValidProfile trace0 := heap0_valid

/-- The order in which a map is visited may be any, for example the reverse of insertion. -/
example : ∀ l : List (Entry × Data), l.reverse.Perm l := fun l => List.reverse_perm l

example : segs0.Pairwise Segment.apart ∧ ∀ g ∈ segs0, g.start < g.limit := by
  simp [segs0, Segment.apart]

/-- The samples of `heap0`: entries 1 and 3 are merged. -/
theorem heap0_run : (match makeProto "drop" List.reverse segs0 heap0 with
    | .ok p => (read p).map fun x => x.samples.map fun s => (s.stack, s.values)
    | _ => none) =
    some [([0x1000], [-1, 4096, 0, 0, 0, 0]),
      ([0x1000, 0x2004], [5, 160, 20480, 12288, 80, 3])] := by decide +kernel

theorem trace0_run : (match makeProto "drop" id segs0 trace0 with
    | .ok p => (read p).map fun x => x.samples.map fun s => (s.values, s.labels.length)
    | _ => none) =
    some [([2, 64, 0, 0, 0, 0], 12), ([0, 0, 1, 4096, 0, 0], 24), ([3, 96, 0, 0, 0, 0], 12)] := by
  decide +kernel

/-- Each location names its segment, although they were loaded in the other order. -/
theorem heap0_mappings : (match makeProto "drop" id segs0 heap0 with
    | .ok p => p.locations.map fun l => (l.addr, l.mapping)
    | _ => []) = [(0x1000, 2), (0x2004, 1)] := by decide +kernel

/-- Why the segments must not be empty: an empty segment that starts where another one does is found
first and hides it, so an address of the other one names no segment. -/
theorem empty_segment_hides :
    (match makeProto "drop" id [⟨0x1000, 0x1000, 0, "/lib/b", ""⟩, ⟨0x1000, 0x2000, 0, "/bin/a", ""⟩]
        { heap0 with infos := [⟨e3, none, none⟩] } with
    | .ok p => p.locations.map fun l => (l.addr, l.mapping)
    | _ => []) = [(0x1000, 0)] := by decide +kernel

end Verif.ProfileProto
