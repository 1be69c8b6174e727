import Verif.ProfileProto.Lemmas2
/- Merging, and the samples of a message. -/
namespace Verif.ProfileProto

/-! ### Merging -/

theorem toSize_lt (v : Int) : toSize v < 2 ^ 64 := by unfold toSize; omega

theorem toSize_add (a b : Int) : (toSize a + toSize b) % 2 ^ 64 = toSize (a + b) := by
  unfold toSize; omega

theorem bump_getD (o : Option Nat) {a : Int} (v : Int) (h : o.getD 0 = toSize a) :
    (bump o (toSize v)).getD 0 = toSize (a + v) := by
  have hv := toSize_lt v
  cases o with
  | none =>
    simp only [Option.getD_none] at h
    simp only [bump, Option.getD_some, ← toSize_add, ← h]
    omega
  | some x =>
    simp only [Option.getD_some] at h
    simp only [bump, Option.getD_some, ← toSize_add, h]

/-- The scan period after some answers. -/
def scanOf (l : List Info) : Option Nat :=
  match l.filterMap fun i => i.flags.map Flags.scan with
  | [] => none
  | s :: r => some (if r.all (· == s) then s else 0)

structure DataOk (d : Data) (l : List Info) : Prop where
  count : d.count = (l.map (·.entry.count)).sum
  sum : d.sum = (l.map (·.entry.sum)).sum
  resident : d.resident.getD 0 =
    toSize (l.map fun i => i.entry.count * (((i.res.map (·.1)).getD 0 : Nat) : Int)).sum
  swapped : d.swapped.getD 0 =
    toSize (l.map fun i => i.entry.count * (((i.res.map (·.2)).getD 0 : Nat) : Int)).sum
  stale : d.stale.getD 0 =
    toSize (l.map fun i => i.entry.count * (((i.flags.map Flags.stale).getD 0 : Nat) : Int)).sum
  locked : d.locked.getD 0 =
    toSize (l.map fun i => i.entry.count * (((i.flags.map Flags.locked).getD 0 : Nat) : Int)).sum
  scan : d.scan = scanOf l

theorem dataOk_empty : DataOk Data.empty [] := by
  constructor <;> rfl

theorem sum_snoc (f : Info → Int) (l : List Info) (i : Info) :
    ((l ++ [i]).map f).sum = (l.map f).sum + f i := by simp

theorem scanOf_none {l : List Info} {i : Info} (h : i.flags = none) :
    scanOf (l ++ [i]) = scanOf l := by
  unfold scanOf
  rw [List.filterMap_append]
  simp [h]

theorem scanOf_some {l : List Info} {i : Info} {f : Flags} (h : i.flags = some f) :
    scanOf (l ++ [i]) = match scanOf l with
      | none => some f.scan
      | some s => if s ≠ f.scan then some 0 else some s := by
  unfold scanOf
  rw [List.filterMap_append]
  simp only [List.filterMap_cons, h, Option.map_some, List.filterMap_nil]
  cases l.filterMap fun i => i.flags.map Flags.scan with
  | nil => simp
  | cons s r =>
    simp only [List.cons_append, List.all_append, List.all_cons, List.all_nil, Bool.and_true]
    cases hr : r.all (· == s) <;> by_cases he : s = f.scan
    · simp only [Bool.false_and, Bool.false_eq_true, if_false]
      split <;> rfl
    · simp only [Bool.false_and, Bool.false_eq_true, if_false]
      split <;> rfl
    · subst he; simp
    · have : (f.scan == s) = false := by
        rw [beq_eq_false_iff_ne]; exact fun h => he h.symm
      simp [this, he]

theorem dataOk_add {d : Data} {l : List Info} (h : DataOk d l) (i : Info) :
    DataOk (d.add i) (l ++ [i]) := by
  obtain ⟨h1, h2, h3, h4, h5, h6, h7⟩ := h
  constructor
  · rw [sum_snoc, ← h1]
    unfold Data.add
    cases i.res <;> cases i.flags <;> rfl
  · rw [sum_snoc, ← h2]
    unfold Data.add
    cases i.res <;> cases i.flags <;> rfl
  · rw [sum_snoc]
    unfold Data.add
    cases hr : i.res with
    | none => cases i.flags <;> simpa using h3
    | some x =>
      have := bump_getD d.resident (i.entry.count * x.1) h3
      cases i.flags <;> exact this
  · rw [sum_snoc]
    unfold Data.add
    cases hr : i.res with
    | none => cases i.flags <;> simpa using h4
    | some x =>
      have := bump_getD d.swapped (i.entry.count * x.2) h4
      cases i.flags <;> exact this
  · rw [sum_snoc]
    unfold Data.add
    cases hr : i.flags with
    | none => cases i.res <;> simpa using h5
    | some x =>
      have := bump_getD d.stale (i.entry.count * x.stale) h5
      cases i.res <;> exact this
  · rw [sum_snoc]
    unfold Data.add
    cases hr : i.flags with
    | none => cases i.res <;> simpa using h6
    | some x =>
      have := bump_getD d.locked (i.entry.count * x.locked) h6
      cases i.res <;> exact this
  · cases hr : i.flags with
    | none =>
      rw [scanOf_none hr, ← h7]
      unfold Data.add
      rw [hr]
      cases i.res <;> rfl
    | some f =>
      rw [scanOf_some hr, ← h7]
      unfold Data.add
      rw [hr]
      cases i.res <;> rfl

theorem mergeOne_keys (i : Info) : ∀ (M : List (Entry × Data)),
    (mergeOne M i).map (fun x => keyOf x.1) =
      if keyOf i.entry ∈ M.map (fun x => keyOf x.1) then M.map (fun x => keyOf x.1)
      else M.map (fun x => keyOf x.1) ++ [keyOf i.entry]
  | [] => by simp [mergeOne]
  | (e, d) :: M => by
    simp only [mergeOne]
    by_cases h : keyOf e = keyOf i.entry
    · rw [if_pos h]
      simp [h]
    · rw [if_neg h]
      simp only [List.map_cons, mergeOne_keys i M, List.mem_cons]
      have h' : ¬ keyOf i.entry = keyOf e := fun he => h he.symm
      simp only [h', false_or]
      split <;> simp

theorem mergeOne_mem (i : Info) : ∀ {M : List (Entry × Data)} {e : Entry} {d : Data},
    (M.map fun x => keyOf x.1).Nodup → (e, d) ∈ mergeOne M i →
    (keyOf e ≠ keyOf i.entry ∧ (e, d) ∈ M) ∨
    (keyOf e = keyOf i.entry ∧ ∃ d0, (e, d0) ∈ M ∧ d = d0.add i) ∨
    (e = i.entry ∧ d = Data.empty.add i ∧ keyOf i.entry ∉ M.map fun x => keyOf x.1)
  | [], e, d, _, h => by
    simp only [mergeOne, List.mem_singleton, Prod.mk.injEq] at h
    exact .inr (.inr ⟨h.1, h.2, by simp⟩)
  | (e', d') :: M, e, d, hn, h => by
    simp only [List.map_cons, List.nodup_cons] at hn
    simp only [mergeOne] at h
    by_cases hk : keyOf e' = keyOf i.entry
    · rw [if_pos hk] at h
      rcases List.mem_cons.1 h with h | h
      · cases h
        exact .inr (.inl ⟨hk, d', List.mem_cons_self, rfl⟩)
      · refine .inl ⟨?_, List.mem_cons_of_mem _ h⟩
        intro he
        apply hn.1
        rw [hk, ← he]
        exact List.mem_map.2 ⟨_, h, rfl⟩
    · rw [if_neg hk] at h
      rcases List.mem_cons.1 h with h | h
      · cases h
        exact .inl ⟨hk, List.mem_cons_self⟩
      · rcases mergeOne_mem i hn.2 h with ⟨g1, g2⟩ | ⟨g1, d0, g2, g3⟩ | ⟨g1, g2, g3⟩
        · exact .inl ⟨g1, List.mem_cons_of_mem _ g2⟩
        · exact .inr (.inl ⟨g1, d0, List.mem_cons_of_mem _ g2, g3⟩)
        · refine .inr (.inr ⟨g1, g2, ?_⟩)
          simp only [List.map_cons, List.mem_cons, not_or]
          exact ⟨fun he => hk he.symm, g3⟩

/-- The map holds one entry for each kind, with the totals of that kind. -/
structure Merged (M : List (Entry × Data)) (l : List Info) : Prop where
  nodup : (M.map fun x => keyOf x.1).Nodup
  keys : ∀ k, k ∈ (M.map fun x => keyOf x.1) ↔ ∃ i ∈ l, keyOf i.entry = k
  orig : ∀ e d, (e, d) ∈ M → ∃ i ∈ l, i.entry = e
  data : ∀ e d, (e, d) ∈ M → DataOk d (l.filter fun i => keyOf i.entry = keyOf e)

theorem merged_one {M : List (Entry × Data)} {l : List Info} (h : Merged M l) (i : Info) :
    Merged (mergeOne M i) (l ++ [i]) := by
  obtain ⟨h1, h2, h3, h4⟩ := h
  constructor
  · rw [mergeOne_keys]
    split
    · exact h1
    · rename_i hn
      rw [List.nodup_append]
      refine ⟨h1, by simp, ?_⟩
      intro a ha b hb he
      simp only [List.mem_singleton] at hb
      subst hb he
      exact hn ha
  · intro k
    have hex : (∃ j ∈ l ++ [i], keyOf j.entry = k) ↔
        (∃ j ∈ l, keyOf j.entry = k) ∨ keyOf i.entry = k := by
      constructor
      · rintro ⟨j, hj, hk⟩
        rcases List.mem_append.1 hj with hj | hj
        · exact .inl ⟨j, hj, hk⟩
        · simp only [List.mem_singleton] at hj
          exact .inr (hj ▸ hk)
      · rintro (⟨j, hj, hk⟩ | hk)
        · exact ⟨j, List.mem_append_left _ hj, hk⟩
        · exact ⟨i, by simp, hk⟩
    rw [mergeOne_keys, hex, ← h2 k]
    split
    · rename_i hm
      constructor
      · exact .inl
      · rintro (h | h)
        · exact h
        · exact h ▸ hm
    · simp only [List.mem_append, List.mem_singleton]
      constructor <;> rintro (h | h)
      · exact .inl h
      · exact .inr h.symm
      · exact .inl h
      · exact .inr h.symm
  · intro e d hm
    rcases mergeOne_mem i h1 hm with ⟨_, g⟩ | ⟨_, d0, g, _⟩ | ⟨g, _, _⟩
    · obtain ⟨j, hj, he⟩ := h3 e d g
      exact ⟨j, List.mem_append_left _ hj, he⟩
    · obtain ⟨j, hj, he⟩ := h3 e d0 g
      exact ⟨j, List.mem_append_left _ hj, he⟩
    · exact ⟨i, by simp, g.symm⟩
  · intro e d hm
    rw [List.filter_append]
    rcases mergeOne_mem i h1 hm with ⟨g1, g2⟩ | ⟨g1, d0, g2, g3⟩ | ⟨g1, g2, g3⟩
    · have : ¬ keyOf i.entry = keyOf e := fun he => g1 he.symm
      rw [List.filter_cons_of_neg (by simp [this]), List.filter_nil, List.append_nil]
      exact h4 e d g2
    · rw [List.filter_cons_of_pos (by simp [g1]), List.filter_nil, g3]
      exact dataOk_add (h4 e d0 g2) i
    · rw [List.filter_cons_of_pos (by simp [g1]), List.filter_nil, g2]
      have hnil : (l.filter fun j => keyOf j.entry = keyOf e) = [] := by
        rw [List.filter_eq_nil_iff]
        intro j hj
        simp only [decide_eq_true_eq]
        intro hk
        apply g3
        rw [h2]
        exact ⟨j, hj, by rw [hk, g1]⟩
      rw [hnil]
      exact dataOk_add dataOk_empty i

theorem merged_foldl : ∀ {r : List Info} {M : List (Entry × Data)} {l : List Info},
    Merged M l → Merged (r.foldl mergeOne M) (l ++ r)
  | [], M, l, h => by simpa using h
  | i :: r, M, l, h => by
    have := merged_foldl (r := r) (merged_one h i)
    simpa using this

theorem merged_merge (l : List Info) : Merged (merge l) l := by
  have h : Merged [] [] := ⟨by simp, by simp, by simp, by simp⟩
  simpa [merge] using merged_foldl (r := l) h

/-! ### Samples -/

/-- Everything but strings, locations and samples is the same. -/
structure Same (b c : Builder) : Prop where
  grows : Grows b.p c.p
  maps : c.p.mappings = b.p.mappings
  types : c.p.sampleTypes = b.p.sampleTypes
  period : c.p.periodType = b.p.periodType
  dflt : c.p.defaultType = b.p.defaultType
  drop : c.p.dropFrames = b.p.dropFrames
  duration : c.p.duration = b.p.duration
  time : c.p.time = b.p.time

theorem Same.refl (b : Builder) : Same b b := ⟨.refl _, rfl, rfl, rfl, rfl, rfl, rfl, rfl⟩

theorem Same.trans {a b c : Builder} (h : Same a b) (h' : Same b c) : Same a c :=
  ⟨h.grows.trans h'.grows, h'.maps.trans h.maps, h'.types.trans h.types,
   h'.period.trans h.period, h'.dflt.trans h.dflt, h'.drop.trans h.drop,
   h'.duration.trans h.duration, h'.time.trans h.time⟩

/-- Adding a sample that reads as `x`. -/
theorem push_ok {b c : Builder} {L : List PlainSample} {s : PSample} {x : PlainSample}
    (hL : readAll (readSample b.p) b.p.samples = some L) (he : Ext b c) (hi : Inv c)
    (hs : readSample c.p s = some x) :
    Inv { c with p := { c.p with samples := c.p.samples ++ [s] } } ∧
    Same b { c with p := { c.p with samples := c.p.samples ++ [s] } } ∧
    readAll (readSample { c.p with samples := c.p.samples ++ [s] }) (c.p.samples ++ [s]) =
      some (L ++ [x]) := by
  refine ⟨inv_congr hi rfl rfl rfl rfl rfl rfl, ⟨⟨he.grows.strs, he.grows.locs⟩, he.maps, he.types,
    he.period, he.dflt, he.drop, he.duration, he.time⟩, ?_⟩
  have hg : Grows c.p { c.p with samples := c.p.samples ++ [s] } := ⟨⟨[], by simp⟩, ⟨[], by simp⟩⟩
  refine readAll_append ?_ (readAll_one (hg.sample hs))
  rw [he.samples]
  exact readAll_mono (fun _ _ => (he.grows.trans hg).sample) hL

/-- The values of a sample of a heap profile. -/
def heapValues (residency : Bool) (d : Data) : List Int :=
  [d.count, d.sum] ++
    (if residency then
      [toI64 (d.resident.getD 0), toI64 (d.swapped.getD 0), toI64 (d.stale.getD 0),
       toI64 (d.locked.getD 0)]
     else [])

theorem heapSample_ok {v : String → Nat} {r : Bool} {b : Builder} {e : Entry} {d : Data}
    {L : List PlainSample} (inv : Inv b) (hn : Names b.p v heapNames) (hv : Valid e)
    (hd : d.scan.getD 0 < 2 ^ 64) (hL : readAll (readSample b.p) b.p.samples = some L) :
    ∃ c, heapSample v r b e d = some c ∧ Inv c ∧ Same b c ∧
      readAll (readSample c.p) c.p.samples = some (L ++ [⟨e.stack.map callOf, heapValues r d,
        plainTags (keyOf e) ++ opt "stale_scan_period" "seconds" (d.scan.getD 0)⟩]) := by
  unfold heapSample
  rw [if_neg (by have := hv.depth; unfold kMaxStackDepth; omega)]
  obtain ⟨c1, locs, h1, i1, e1, r1⟩ := stack_ok inv hv.frames
  rw [h1]
  dsimp only
  obtain ⟨c2, labels, h2, i2, e2, r2⟩ := tags_ok i1 hv
  rw [h2]
  dsimp only
  have he := e1.trans e2
  have N : ∀ {s}, s ∈ heapNames → c2.p.strings[v s]? = some s := fun hs => hn.mono he.grows _ hs
  have hs : readSample c2.p ⟨locs, heapValues r d,
      labels ++ posLabel (v "stale_scan_period") (v "seconds") (d.scan.getD 0)⟩ =
      some ⟨e.stack.map callOf, heapValues r d,
        plainTags (keyOf e) ++ opt "stale_scan_period" "seconds" (d.scan.getD 0)⟩ := by
    simp only [readSample, readAll_mono (fun _ _ => e2.grows.loc) r1,
      readAll_append r2 (read_pos i2.s0 (N (s := "stale_scan_period") (by decide))
        (N (s := "seconds") (by decide)) hd)]
  obtain ⟨g1, g2, g3⟩ := push_ok hL he i2 hs
  exact ⟨_, rfl, g1, g2, g3⟩

theorem heapSamples_ok {v : String → Nat} {r : Bool} : ∀ {M : List (Entry × Data)} {b : Builder}
    {L : List PlainSample}, Inv b → Names b.p v heapNames → (∀ x ∈ M, Valid x.1) →
    (∀ x ∈ M, x.2.scan.getD 0 < 2 ^ 64) → readAll (readSample b.p) b.p.samples = some L →
    ∃ c, heapSamples v r b M = some c ∧ Inv c ∧ Same b c ∧
      readAll (readSample c.p) c.p.samples = some (L ++ M.map fun x => ⟨x.1.stack.map callOf,
        heapValues r x.2, plainTags (keyOf x.1) ++
          opt "stale_scan_period" "seconds" (x.2.scan.getD 0)⟩)
  | [], b, L, inv, _, _, _, hL => ⟨b, rfl, inv, .refl b, by simpa using hL⟩
  | (e, d) :: M, b, L, inv, hn, hv, hd, hL => by
    obtain ⟨c1, h1, i1, s1, r1⟩ := heapSample_ok (r := r) inv hn (hv _ List.mem_cons_self)
      (hd _ List.mem_cons_self) hL
    obtain ⟨c2, h2, i2, s2, r2⟩ := heapSamples_ok (r := r) (M := M) i1 (hn.mono s1.grows)
      (fun x hx => hv x (List.mem_cons_of_mem _ hx))
      (fun x hx => hd x (List.mem_cons_of_mem _ hx)) r1
    refine ⟨c2, ?_, i2, s1.trans s2, ?_⟩
    · simp only [heapSamples, h1, h2]
    · rw [r2]
      simp

/-! ### Lifetimes -/

theorem where_ok {p : Proto} {v : String → Nat} (h0 : p.strings[0]? = some "")
    (hn : Names p v lifetimeNames) {a c : String} (ha : a ∈ lifetimeNames)
    (hc : c ∈ lifetimeNames) (w : Where) :
    readAll (readLabel p) (whereLabels v a c w) = some (plainWhere a c w) := by
  unfold whereLabels plainWhere
  refine readAll_append ?_ (readAll_one ?_)
  · cases w.id with
    | none => rfl
    | some x => exact readAll_one (read_numZ h0 (hn _ ha) h0 x)
  · cases w.matched with
    | none => exact read_text h0 (hn _ hc) (hn _ (by decide))
    | some m => cases m <;> exact read_text h0 (hn _ hc) (hn _ (by decide))

theorem lifetimeLabels_ok {p : Proto} {v : String → Nat} (h0 : p.strings[0]? = some "")
    (hn : Names p v lifetimeNames) {e : Entry} (hv : Valid e) :
    readAll (readLabel p) (lifetimeLabels v e) =
      some (opt "callstack-pair-id" "count" e.profileId ++
        opt "avg_lifetime" "nanoseconds" e.avg ++ opt "stddev_lifetime" "nanoseconds" e.stddev ++
        opt "min_lifetime" "nanoseconds" e.min ++ opt "max_lifetime" "nanoseconds" e.max ++
        plainWhere "cpu_id" "active CPU" e.cpu ++ plainWhere "vcpu_id" "active vCPU" e.vcpu ++
        plainWhere "l3_id" "active L3" e.l3 ++ plainWhere "numa_id" "active NUMA" e.numa ++
        plainWhere "thread_id" "active thread" e.thread ++
        (if e.handle = 0 then [] else [num "alloc_handle" "count" e.handle]) ++
        (if e.time ≤ 0 then []
         else if e.count < 0 then [num "deallocation_time" "nanoseconds" e.time]
         else [num "allocation_time" "nanoseconds" e.time,
           num "requested_size" "bytes" e.requested])) := by
  have N : ∀ {s}, s ∈ lifetimeNames → p.strings[v s]? = some s := fun hs => hn _ hs
  unfold lifetimeLabels
  refine readAll_append (readAll_append (readAll_append (readAll_append (readAll_append
    (readAll_append (readAll_append (readAll_append (readAll_append (readAll_append (readAll_append
    ?_ ?_) ?_) ?_) ?_) ?_) ?_) ?_) ?_) ?_) ?_) ?_
  · exact read_pos h0 (N (by decide)) (N (by decide)) hv.profileId
  · exact read_posZ h0 (N (by decide)) (N (by decide)) _
  · exact read_posZ h0 (N (by decide)) (N (by decide)) _
  · exact read_posZ h0 (N (by decide)) (N (by decide)) _
  · exact read_posZ h0 (N (by decide)) (N (by decide)) _
  · exact where_ok h0 hn (by decide) (by decide) _
  · exact where_ok h0 hn (by decide) (by decide) _
  · exact where_ok h0 hn (by decide) (by decide) _
  · exact where_ok h0 hn (by decide) (by decide) _
  · exact where_ok h0 hn (by decide) (by decide) _
  · by_cases h : e.handle = 0
    · rw [if_neg (by simpa using h), if_pos h]; rfl
    · rw [if_pos h, if_neg h]
      exact readAll_one (read_num h0 (N (by decide)) (N (by decide)) _)
  · by_cases ht : e.time ≤ 0
    · rw [if_neg (by omega), if_pos ht]; rfl
    · rw [if_pos (by omega), if_neg ht]
      by_cases hc : e.count < 0
      · rw [if_pos hc, if_pos hc]
        exact readAll_one (read_numZ h0 (N (by decide)) (N (by decide)) _)
      · rw [if_neg hc, if_neg hc]
        exact readAll_append
          (readAll_one (read_numZ h0 (N (s := "allocation_time") (by decide))
            (N (s := "nanoseconds") (by decide)) _))
          (readAll_one (read_num h0 (N (s := "requested_size") (by decide))
            (N (s := "bytes") (by decide)) _))

theorem lifetimeValues_eq (e : Entry) : lifetimeValues e = (plainLifetime e).values := by
  unfold lifetimeValues plainLifetime
  dsimp only
  split
  · rfl
  · by_cases h : 0 < e.count
    · rw [if_pos h, if_pos h, Int.natAbs_of_nonneg (by omega)]
    · rw [if_neg h, if_neg h]
      have : (e.count.natAbs : Int) = -e.count := by omega
      rw [this]

theorem lifetimeSample_ok {v : String → Nat} {b : Builder} {e : Entry} {L : List PlainSample}
    (inv : Inv b) (hn : Names b.p v lifetimeNames) (hv : Valid e)
    (hL : readAll (readSample b.p) b.p.samples = some L) :
    ∃ c, lifetimeSample v b e = some c ∧ Inv c ∧ Same b c ∧
      readAll (readSample c.p) c.p.samples = some (L ++ [plainLifetime e]) := by
  unfold lifetimeSample
  rw [if_neg (by have := hv.depth; unfold kMaxStackDepth; omega)]
  obtain ⟨c1, locs, h1, i1, e1, r1⟩ := stack_ok inv hv.frames
  rw [h1]
  dsimp only
  obtain ⟨c2, labels, h2, i2, e2, r2⟩ := tags_ok i1 hv
  rw [h2]
  dsimp only
  have he := e1.trans e2
  have hs : readSample c2.p ⟨locs, lifetimeValues e, labels ++ lifetimeLabels v e⟩ =
      some (plainLifetime e) := by
    simp only [readSample, readAll_mono (fun _ _ => e2.grows.loc) r1,
      readAll_append r2 (lifetimeLabels_ok i2.s0 (hn.mono he.grows) hv), lifetimeValues_eq]
    simp only [plainLifetime, List.append_assoc]
  obtain ⟨g1, g2, g3⟩ := push_ok hL he i2 hs
  exact ⟨_, rfl, g1, g2, g3⟩

theorem lifetimeSamples_ok {v : String → Nat} : ∀ {M : List Entry} {b : Builder}
    {L : List PlainSample}, Inv b → Names b.p v lifetimeNames → (∀ x ∈ M, Valid x) →
    readAll (readSample b.p) b.p.samples = some L →
    ∃ c, lifetimeSamples v b M = some c ∧ Inv c ∧ Same b c ∧
      readAll (readSample c.p) c.p.samples = some (L ++ M.map plainLifetime)
  | [], b, L, inv, _, _, hL => ⟨b, rfl, inv, .refl b, by simpa using hL⟩
  | e :: M, b, L, inv, hn, hv, hL => by
    obtain ⟨c1, h1, i1, s1, r1⟩ := lifetimeSample_ok inv hn (hv _ List.mem_cons_self) hL
    obtain ⟨c2, h2, i2, s2, r2⟩ := lifetimeSamples_ok (M := M) i1 (hn.mono s1.grows)
      (fun x hx => hv x (List.mem_cons_of_mem _ hx)) r1
    refine ⟨c2, ?_, i2, s1.trans s2, ?_⟩
    · simp only [lifetimeSamples, h1, h2]
    · rw [r2]
      simp

end Verif.ProfileProto
