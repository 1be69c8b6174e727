import Verif.Lifetime.Lemmas
/-! What a running profile holds, as a function of the history. -/
namespace Verif.Lifetime

def doneWith (ks : List Rec) (tr : Trace) : List (Rec × Rec) :=
  tr.filterMap fun e => match e with
    | .free h stack time w' =>
      let a := (ks.find? fun r => r.handle == h).getD (unknown h)
      some (a, { handle := h, info := { stack := stack, attrs := a.info.attrs, size := a.info.size, time := time }, loc := w' })
    | _ => none

theorem done_eq (l : List (Nat × Info)) (w : Loc) (tr : Trace) : done l w tr = doneWith (known l w tr) tr := rfl

/-- Neither a malloc nor a free. -/
def Ev.quiet : Ev → Bool
  | .malloc .. => false
  | .free .. => false
  | _ => true

theorem known_append (l : List (Nat × Info)) (w : Loc) (tr tr' : Trace) : known l w (tr ++ tr') = known l w tr ++ known [] w tr' := by
  simp only [known, List.filterMap_append, List.map_nil, List.nil_append, List.append_assoc]

theorem known_quiet (l : List (Nat × Info)) (w : Loc) (tr : Trace) {e : Ev} (h : e.quiet = true) : known l w (tr ++ [e]) = known l w tr := by
  rw [known_append]
  cases e <;> first | exact List.append_nil _ | cases h

theorem freed_snoc (tr : Trace) (e : Ev) (h : Nat) : freed (tr ++ [e]) h = (freed tr h || e.frees h) := by
  simp only [freed, List.any_append, List.any_cons, List.any_nil, Bool.or_false]

theorem open_quiet (l : List (Nat × Info)) (w : Loc) (tr : Trace) {e : Ev} (h : e.quiet = true) : open_ l w (tr ++ [e]) = open_ l w tr := by
  unfold open_
  rw [known_quiet l w tr h]
  refine List.filter_congr fun r _ => ?_
  rw [freed_snoc]
  cases e <;> first | rw [show Ev.frees _ _ = false from rfl, Bool.or_false] | cases h

theorem doneWith_snoc (ks : List Rec) (tr : Trace) (e : Ev) : doneWith ks (tr ++ [e]) = doneWith ks tr ++ doneWith ks [e] := by
  simp only [doneWith, List.filterMap_append]

theorem done_quiet (l : List (Nat × Info)) (w : Loc) (tr : Trace) {e : Ev} (h : e.quiet = true) : done l w (tr ++ [e]) = done l w tr := by
  rw [done_eq, done_eq, known_quiet l w tr h, doneWith_snoc]
  cases e <;> first | exact List.append_nil _ | cases h

/-- What the order of the sampled path makes of a history. -/
structure Wf (tr : Trace) : Prop where
  free : ∀ h, freed tr h = true → .unregister h ∈ tr
  unreg : ∀ h, .unregister h ∈ tr → .register h ∈ tr
  reg : ∀ h, .register h ∈ tr → ∃ e ∈ tr, e.mallocs h = true

theorem Wf.freed {tr : Trace} (h : Wf tr) {x : Nat} (hx : Lifetime.freed tr x = true) : ∃ e ∈ tr, e.mallocs x = true :=
  h.reg x (h.unreg x (h.free x hx))

theorem frees_iff {e : Ev} {h : Nat} : e.frees h = true ↔ ∃ a b c, e = .free h a b c := by
  cases e with
  | free h' a b c =>
    show (h' == h) = true ↔ _
    rw [beq_iff_eq]
    constructor
    · rintro rfl; exact ⟨_, _, _, rfl⟩
    · rintro ⟨_, _, _, h⟩; cases h; rfl
  | _ => exact ⟨fun h => (by cases h), fun ⟨_, _, _, h⟩ => (by cases h)⟩

theorem mallocs_iff {e : Ev} {h : Nat} : e.mallocs h = true ↔ ∃ a b, e = .malloc h a b := by
  cases e with
  | malloc h' a b =>
    show (h' == h) = true ↔ _
    rw [beq_iff_eq]
    constructor
    · rintro rfl; exact ⟨_, _, rfl⟩
    · rintro ⟨_, _, h⟩; cases h; rfl
  | _ => exact ⟨fun h => (by cases h), fun ⟨_, _, h⟩ => (by cases h)⟩

theorem Wf.snoc {tr : Trace} (h : Wf tr) {e : Ev} (hp : Pre tr e) : Wf (tr ++ [e]) := by
  refine ⟨fun x hx => ?_, fun x hx => ?_, fun x hx => ?_⟩
  · rw [freed_snoc] at hx
    rcases (Bool.or_eq_true_iff ..).1 hx with hx | hx
    · exact List.mem_append_left _ (h.free x hx)
    · obtain ⟨a, b, c, rfl⟩ := frees_iff.1 hx
      exact List.mem_append_left _ hp.1
  · rcases List.mem_append.1 hx with hx | hx
    · exact List.mem_append_left _ (h.unreg x hx)
    · cases List.mem_singleton.1 hx
      exact List.mem_append_left _ hp.1
  · rcases List.mem_append.1 hx with hx | hx
    · obtain ⟨e', h1, h2⟩ := h.reg x hx; exact ⟨e', List.mem_append_left _ h1, h2⟩
    · cases List.mem_singleton.1 hx
      obtain ⟨e', h1, h2⟩ := hp.1; exact ⟨e', List.mem_append_left _ h1, h2⟩

/-- What a profile knows: `sub` the events since its start, within the whole history. -/
structure Sees (tr : Trace) (l : List (Nat × Info)) (w : Loc) (m : Mode) (k : Nat) (tr2 : Trace) (q : Prof) : Prop where
  nodup : ((known l w tr2).map (·.handle)).Nodup
  old : ∀ r ∈ known l w tr2, ∃ e ∈ tr, e.mallocs r.handle = true
  sub : ∀ e ∈ tr2, e ∈ tr
  keys : (q.allocs.map (·.1)).Nodup
  allocs : ∀ h r, (h, r) ∈ q.allocs ↔ r ∈ open_ l w tr2 ∧ r.handle = h
  reports : q.reports = addAll ⟨m, k, [], []⟩ (done l w tr2)

theorem Sees.quiet {tr : Trace} {l : List (Nat × Info)} {w : Loc} {m : Mode} {k : Nat} {tr2 : Trace} {q : Prof} (h : Sees tr l w m k tr2 q)
    {e : Ev} (he : e.quiet = true) : Sees (tr ++ [e]) l w m k (tr2 ++ [e]) q := by
  refine ⟨by rw [known_quiet l w tr2 he]; exact h.nodup, fun r hr => ?_, fun x hx => ?_, h.keys, fun x r => ?_, ?_⟩
  · rw [known_quiet l w tr2 he] at hr
    obtain ⟨e', h1, h2⟩ := h.old r hr
    exact ⟨e', List.mem_append_left _ h1, h2⟩
  · rcases List.mem_append.1 hx with hx | hx
    · exact List.mem_append_left _ (h.sub x hx)
    · exact List.mem_append_right _ hx
  · rw [open_quiet l w tr2 he]; exact h.allocs x r
  · rw [done_quiet l w tr2 he]; exact h.reports

theorem doneWith_congr {ks ks' : List Rec} {tr : Trace}
    (h : ∀ x, freed tr x = true → (ks'.find? fun r => r.handle == x) = ks.find? fun r => r.handle == x) : doneWith ks' tr = doneWith ks tr := by
  induction tr with
  | nil => rfl
  | cons e tr ih =>
    have ih := ih fun x hx => h x (by simp only [freed, List.any_cons]; rw [show tr.any (·.frees x) = true from hx, Bool.or_true])
    cases e with
    | free x a b c =>
      have := h x (by simp only [freed, List.any_cons]; rw [show Ev.frees x (.free x a b c) = true from beq_self_eq_true x]; rfl)
      simp only [doneWith, List.filterMap_cons, this] at ih ⊢
      rw [ih]
    | _ => exact ih

theorem setKey_mem {l : List (Nat × Rec)} {h : Nat} {r : Rec} {x : Nat × Rec} : x ∈ setKey l h r ↔ x = (h, r) ∨ x ∈ l ∧ x.1 ≠ h := by
  simp only [setKey, List.mem_cons, List.mem_filter, bne_iff_ne]

theorem setKey_nodup {l : List (Nat × Rec)} {h : Nat} {r : Rec} (hn : (l.map (·.1)).Nodup) : ((setKey l h r).map (·.1)).Nodup := by
  simp only [setKey, List.map_cons, List.nodup_cons]
  refine ⟨fun hm => ?_, hn.sublist ((List.filter_sublist).map _)⟩
  obtain ⟨x, hx, he⟩ := List.mem_map.1 hm
  exact (bne_iff_ne.1 (List.mem_filter.1 hx).2) he

theorem Sees.malloc {tr : Trace} {l : List (Nat × Info)} {w : Loc} {m : Mode} {k : Nat} {tr2 : Trace} {q : Prof} (h : Sees tr l w m k tr2 q) (hw : Wf tr)
    {x : Nat} {i : Info} {w' : Loc} (hp : ∀ e ∈ tr, e.mallocs x = false) :
    Sees (tr ++ [.malloc x i w']) l w m k (tr2 ++ [.malloc x i w']) (q.malloc x i w') := by
  have hk : known l w (tr2 ++ [.malloc x i w']) = known l w tr2 ++ [⟨x, i, w'⟩] := by rw [known_append]; rfl
  have hnew : ∀ r ∈ known l w tr2, r.handle ≠ x := by
    rintro r hr rfl
    obtain ⟨e, h1, h2⟩ := h.old r hr
    rw [hp e h1] at h2; cases h2
  have hnf : freed tr2 x = false := by
    rw [← Bool.not_eq_true]
    intro hf
    obtain ⟨e, he, hx⟩ := List.any_eq_true.1 hf
    obtain ⟨e', h1, h2⟩ := hw.freed (x := x) (List.any_eq_true.2 ⟨e, h.sub e he, hx⟩)
    rw [hp e' h1] at h2; cases h2
  have ho : open_ l w (tr2 ++ [.malloc x i w']) = open_ l w tr2 ++ [⟨x, i, w'⟩] := by
    unfold open_
    have hf : (fun r : Rec => !freed (tr2 ++ [.malloc x i w']) r.handle) = fun r => !freed tr2 r.handle := by
      funext r; rw [freed_snoc, show Ev.frees r.handle (.malloc x i w') = false from rfl, Bool.or_false]
    rw [hk, hf, List.filter_append, List.filter_cons_of_pos (by show (!freed tr2 x) = true; rw [hnf]; rfl)]
    rfl
  refine ⟨?_, fun r hr => ?_, fun y hy => ?_, setKey_nodup h.keys, fun y r => ?_, ?_⟩
  · rw [hk, List.map_append, List.nodup_append]
    refine ⟨h.nodup, List.nodup_cons.2 ⟨List.not_mem_nil, List.nodup_nil⟩, fun a ha b hb => ?_⟩
    rw [List.mem_singleton.1 hb]
    obtain ⟨r, hr, rfl⟩ := List.mem_map.1 ha
    exact hnew r hr
  · rw [hk] at hr
    rcases List.mem_append.1 hr with hr | hr
    · obtain ⟨e, h1, h2⟩ := h.old r hr; exact ⟨e, List.mem_append_left _ h1, h2⟩
    · rw [List.mem_singleton.1 hr]; exact ⟨_, List.mem_append_right _ (List.mem_singleton.2 rfl), beq_self_eq_true x⟩
  · rcases List.mem_append.1 hy with hy | hy
    · exact List.mem_append_left _ (h.sub y hy)
    · exact List.mem_append_right _ hy
  · show (y, r) ∈ setKey q.allocs x ⟨x, i, w'⟩ ↔ _
    rw [setKey_mem, ho, List.mem_append, List.mem_singleton, h.allocs]
    constructor
    · rintro (h9 | ⟨⟨h9, rfl⟩, -⟩)
      · cases h9; exact ⟨Or.inr rfl, rfl⟩
      · exact ⟨Or.inl h9, rfl⟩
    · rintro ⟨h9 | h9, rfl⟩
      · exact Or.inr ⟨⟨h9, rfl⟩, hnew r (List.mem_filter.1 h9).1⟩
      · rw [h9]; exact Or.inl rfl
  · show q.reports = _
    rw [h.reports, done_eq, done_eq, hk, doneWith_snoc]
    have : doneWith (known l w tr2 ++ [⟨x, i, w'⟩]) [.malloc x i w'] = [] := rfl
    rw [this, List.append_nil]
    congr 1
    refine (doneWith_congr fun y hy => ?_).symm
    rw [List.find?_append]
    have : ([⟨x, i, w'⟩] : List Rec).find? (fun r => r.handle == y) = none := by
      rw [List.find?_cons_of_neg]
      · rfl
      · show ¬(x == y) = true
        rw [beq_iff_eq]; rintro rfl; rw [hnf] at hy; cases hy
    rw [this, Option.or_none]

theorem lookup_find (q : List (Nat × Rec)) (ks : List Rec) (x : Nat) (hq : (q.map (·.1)).Nodup) (hk : (ks.map (·.handle)).Nodup)
    (h : ∀ r, (x, r) ∈ q ↔ r ∈ ks ∧ r.handle = x) : q.lookup x = ks.find? fun r => r.handle == x := by
  have h1 : ∀ (q : List (Nat × Rec)), (q.map (·.1)).Nodup → ∀ r, q.lookup x = some r ↔ (x, r) ∈ q := by
    intro q
    induction q with
    | nil => intro _ r; exact ⟨fun h => (by cases h), fun h => (by cases h)⟩
    | cons y q ih =>
      intro hn r
      simp only [List.map_cons, List.nodup_cons] at hn
      rw [List.lookup_cons]
      by_cases hy : x = y.1
      · rw [show (x == y.1) = true from beq_iff_eq.2 hy]
        show some y.2 = some r ↔ _
        rw [Option.some.injEq, List.mem_cons]
        constructor
        · rintro rfl; left; rw [hy]
        · rintro (h | h)
          · rw [← h]
          · exact absurd (List.mem_map_of_mem (f := (·.1)) h) (by rw [hy]; exact hn.1)
      · rw [show (x == y.1) = false from beq_eq_false_iff_ne.2 hy]
        show q.lookup x = some r ↔ _
        rw [ih hn.2 r, List.mem_cons]
        exact ⟨Or.inr, fun h => h.resolve_left fun h => hy (by rw [← h])⟩
  have h2 : ∀ (ks : List Rec), (ks.map (·.handle)).Nodup → ∀ r, (ks.find? fun r => r.handle == x) = some r ↔ r ∈ ks ∧ r.handle = x := by
    intro ks
    induction ks with
    | nil => intro _ r; exact ⟨fun h => (by cases h), fun h => (by cases h.1)⟩
    | cons y ks ih =>
      intro hn r
      simp only [List.map_cons, List.nodup_cons] at hn
      by_cases hy : y.handle = x
      · rw [List.find?_cons_of_pos (by exact beq_iff_eq.2 hy), Option.some.injEq, List.mem_cons]
        constructor
        · rintro rfl; exact ⟨Or.inl rfl, hy⟩
        · rintro ⟨h | h, hr⟩
          · exact h.symm
          · exact absurd (List.mem_map_of_mem (f := (·.handle)) h) (by rw [hr, ← hy]; exact hn.1)
      · rw [List.find?_cons_of_neg (by rw [beq_iff_eq]; exact hy), ih hn.2 r, List.mem_cons]
        exact ⟨fun h => ⟨Or.inr h.1, h.2⟩, fun h => ⟨h.1.resolve_left fun h9 => hy (by rw [← h9]; exact h.2), h.2⟩⟩
  apply Option.ext
  intro r
  rw [h1 q hq, h2 ks hk, h]

theorem Sees.free {tr : Trace} {l : List (Nat × Info)} {w : Loc} {m : Mode} {k : Nat} {tr2 : Trace} {q : Prof} (h : Sees tr l w m k tr2 q)
    {x : Nat} {st : List Nat} {t : Int} {w' : Loc} (hp : ∀ e ∈ tr, e.frees x = false) :
    Sees (tr ++ [.free x st t w']) l w m k (tr2 ++ [.free x st t w']) (q.free x st t w') := by
  have hk : known l w (tr2 ++ [.free x st t w']) = known l w tr2 := by rw [known_append]; exact List.append_nil _
  have hnf : freed tr2 x = false := by
    rw [← Bool.not_eq_true]
    intro hf
    obtain ⟨e, he, hx⟩ := List.any_eq_true.1 hf
    rw [hp e (h.sub e he)] at hx; cases hx
  have hl : q.allocs.lookup x = (known l w tr2).find? fun r => r.handle == x := by
    refine lookup_find _ _ x h.keys h.nodup fun r => ?_
    rw [h.allocs, open_, List.mem_filter]
    exact ⟨fun ⟨a, b⟩ => ⟨a.1, b⟩, fun ⟨a, b⟩ => ⟨⟨a, by rw [b, hnf]; rfl⟩, b⟩⟩
  have hh : ∀ r, (known l w tr2).find? (fun r => r.handle == x) = some r → r.handle = x := fun r hr => by
    have := List.find?_some hr
    exact beq_iff_eq.1 this
  have hhandle : (((known l w tr2).find? fun r => r.handle == x).getD (unknown x)).handle = x := by
    cases hf : (known l w tr2).find? fun r => r.handle == x with
    | none => rfl
    | some r => exact hh r hf
  refine ⟨by rw [hk]; exact h.nodup, fun r hr => ?_, fun y hy => ?_, h.keys.sublist ((List.filter_sublist).map _), fun y r => ?_, ?_⟩
  · rw [hk] at hr
    obtain ⟨e, h1, h2⟩ := h.old r hr; exact ⟨e, List.mem_append_left _ h1, h2⟩
  · rcases List.mem_append.1 hy with hy | hy
    · exact List.mem_append_left _ (h.sub y hy)
    · exact List.mem_append_right _ hy
  · show (y, r) ∈ q.allocs.filter (fun z => z.1 != x) ↔ _
    rw [List.mem_filter, h.allocs, open_, open_, hk, List.mem_filter, List.mem_filter, freed_snoc]
    show (_ ∧ (y != x) = true) ↔ (_ ∧ (!(freed tr2 r.handle || (x == r.handle))) = true) ∧ _
    constructor
    · rintro ⟨⟨⟨a, b⟩, rfl⟩, c⟩
      refine ⟨⟨a, ?_⟩, rfl⟩
      have : (x == r.handle) = false := beq_eq_false_iff_ne.2 fun e => (bne_iff_ne.1 c) e.symm
      rw [this, Bool.or_false]; exact b
    · rintro ⟨⟨a, b⟩, rfl⟩
      rw [Bool.not_or] at b
      obtain ⟨b1, b2⟩ := (Bool.and_eq_true_iff ..).1 b
      refine ⟨⟨⟨a, b1⟩, rfl⟩, bne_iff_ne.2 fun e => ?_⟩
      rw [e, beq_self_eq_true] at b2; cases b2
  · rw [done_eq, hk, doneWith_snoc]
    have hd : doneWith (known l w tr2) [.free x st t w'] =
        [(((known l w tr2).find? fun r => r.handle == x).getD (unknown x),
          ⟨x, ⟨st, (((known l w tr2).find? fun r => r.handle == x).getD (unknown x)).info.attrs,
            (((known l w tr2).find? fun r => r.handle == x).getD (unknown x)).info.size, t⟩, w'⟩)] := rfl
    rw [hd, addAll_snoc, ← done_eq, ← h.reports]
    simp only [Prof.free, hl, show unseen x = unknown x from rfl, hhandle]

theorem Sees.start (tr : Trace) (l : List (Nat × Info)) (w : Loc) (m : Mode) (k : Nat) (hn : (l.map (·.1)).Nodup)
    (ho : ∀ x ∈ l, ∃ w, .malloc x.1 x.2 w ∈ tr) :
    Sees tr l w m k [] (l.foldl (fun q x => q.malloc x.1 x.2 w) ⟨[], ⟨m, k, [], []⟩⟩) := by
  have hk : known l w [] = l.map fun x => ⟨x.1, x.2, w⟩ := List.append_nil _
  have ho' : open_ l w [] = l.map fun x => ⟨x.1, x.2, w⟩ := by
    unfold open_; rw [hk]; exact List.filter_eq_self.2 fun r _ => rfl
  have key : ∀ (l : List (Nat × Info)) (q : Prof), (q.allocs.map (·.1)).Nodup → (l.map (·.1)).Nodup → (∀ x ∈ l, ∀ y ∈ q.allocs, y.1 ≠ x.1) →
      ((l.foldl (fun q x => q.malloc x.1 x.2 w) q).allocs.map (·.1)).Nodup ∧ (l.foldl (fun q x => q.malloc x.1 x.2 w) q).reports = q.reports ∧
      ∀ y, y ∈ (l.foldl (fun q x => q.malloc x.1 x.2 w) q).allocs ↔ y ∈ q.allocs ∨ ∃ x ∈ l, y = (x.1, ⟨x.1, x.2, w⟩) := by
    intro l
    induction l with
    | nil => intro q hq _ _; exact ⟨hq, rfl, fun y => ⟨Or.inl, fun h => h.resolve_right fun ⟨_, h, _⟩ => (by cases h)⟩⟩
    | cons x l ih =>
      intro q hq hn hd
      simp only [List.map_cons, List.nodup_cons] at hn
      obtain ⟨h1, h2, h3⟩ := ih (q.malloc x.1 x.2 w) (setKey_nodup hq) hn.2 fun y hy z hz => by
        rcases setKey_mem.1 hz with rfl | ⟨hz, -⟩
        · intro e; exact hn.1 (by show x.1 ∈ _; rw [show x.1 = y.1 from e]; exact List.mem_map_of_mem (f := (·.1)) hy)
        · exact hd y (List.mem_cons_of_mem _ hy) z hz
      refine ⟨h1, h2, fun y => ?_⟩
      rw [List.foldl_cons, h3 y]
      show (y ∈ setKey q.allocs x.1 _ ∨ _) ↔ _
      rw [setKey_mem]
      constructor
      · rintro ((rfl | ⟨h, -⟩) | ⟨z, hz, rfl⟩)
        · exact Or.inr ⟨x, List.mem_cons_self .., rfl⟩
        · exact Or.inl h
        · exact Or.inr ⟨z, List.mem_cons_of_mem _ hz, rfl⟩
      · rintro (h | ⟨z, hz, rfl⟩)
        · exact Or.inl (Or.inr ⟨h, hd x (List.mem_cons_self ..) y h⟩)
        · rcases List.mem_cons.1 hz with rfl | hz
          · exact Or.inl (Or.inl rfl)
          · exact Or.inr ⟨z, hz, rfl⟩
  obtain ⟨h1, h2, h3⟩ := key l ⟨[], ⟨m, k, [], []⟩⟩ List.nodup_nil hn fun _ _ y hy => by cases hy
  refine ⟨?_, fun r hr => ?_, fun e he => (by cases he), h1, fun h r => ?_, h2⟩
  · rw [hk, List.map_map]; exact hn
  · rw [hk] at hr
    obtain ⟨x, hx, rfl⟩ := List.mem_map.1 hr
    obtain ⟨w', hw'⟩ := ho x hx
    exact ⟨_, hw', beq_self_eq_true _⟩
  · rw [h3, ho', List.mem_map]
    constructor
    · rintro (h | ⟨x, hx, he⟩)
      · cases h
      · cases he; exact ⟨⟨x, hx, rfl⟩, rfl⟩
    · rintro ⟨⟨x, hx, rfl⟩, rfl⟩
      exact Or.inr ⟨x, hx, rfl⟩

def evs (m : Mode) (k : Nat) : Nat := if m = .eventTrace then k else 0

/-- A profile being started. -/
def Starting (tr : Trace) (p : Nat) (q : Prof) : Prop :=
  ∃ tr0 m k tr1, tr = tr0 ++ .add p m k :: tr1 ∧ (∀ e ∈ tr1, e.quiet = true) ∧ q = ⟨[], ⟨m, evs m k, [], []⟩⟩

/-- A profile that runs. -/
def Running (tr : Trace) (p : Nat) (q : Prof) : Prop :=
  ∃ tr0 m k tr1 l w tr2, tr = tr0 ++ .add p m k :: (tr1 ++ .seed p l w :: tr2) ∧ (∀ e ∈ tr1, e.quiet = true) ∧
    Seeded tr0 (tr0 ++ .add p m k :: tr1) l ∧ Sees tr l w m (evs m k) tr2 q

structure Inv (tr : Trace) (s : St) : Prop where
  wf : Wf tr
  nodup : s.first.Nodup
  listed : ∀ p, p ∈ s.first ↔ (s.prof p).isSome
  prof : ∀ p q, s.prof p = some q → if s.lock = some p then Starting tr p q else Running tr p q
  lock : ∀ p, s.lock = some p → (s.prof p).isSome
  added : ∀ p, (s.prof p).isSome → ∃ e ∈ tr, e.adds p = true

theorem Running.snoc {tr : Trace} {p : Nat} {q q' : Prof} {e : Ev} (h : Running tr p q)
    (f : ∀ l w m k tr2, Sees tr l w m k tr2 q → Sees (tr ++ [e]) l w m k (tr2 ++ [e]) q') : Running (tr ++ [e]) p q' := by
  obtain ⟨tr0, m, k, tr1, l, w, tr2, rfl, h1, h2, h3⟩ := h
  exact ⟨tr0, m, k, tr1, l, w, tr2 ++ [e], by simp only [List.append_assoc, List.cons_append], h1, h2, f _ _ _ _ _ h3⟩

theorem Running.quiet {tr : Trace} {p : Nat} {q : Prof} {e : Ev} (h : Running tr p q) (he : e.quiet = true) : Running (tr ++ [e]) p q :=
  h.snoc fun _ _ _ _ _ hs => hs.quiet he

theorem Starting.quiet {tr : Trace} {p : Nat} {q : Prof} {e : Ev} (h : Starting tr p q) (he : e.quiet = true) : Starting (tr ++ [e]) p q := by
  obtain ⟨tr0, m, k, tr1, rfl, h1, h2⟩ := h
  refine ⟨tr0, m, k, tr1 ++ [e], by simp only [List.append_assoc, List.cons_append], fun x hx => ?_, h2⟩
  rcases List.mem_append.1 hx with hx | hx
  · exact h1 x hx
  · rw [List.mem_singleton.1 hx]; exact he

theorem added_snoc {tr : Trace} {p : Nat} {e : Ev} (h : ∃ e ∈ tr, Ev.adds p e = true) : ∃ e' ∈ tr ++ [e], Ev.adds p e' = true := by
  obtain ⟨e', h1, h2⟩ := h; exact ⟨e', List.mem_append_left _ h1, h2⟩

theorem Inv.quiet {tr : Trace} {s : St} (h : Inv tr s) {e : Ev} (hp : Pre tr e) (he : e.quiet = true) : Inv (tr ++ [e]) s := by
  refine ⟨h.wf.snoc hp, h.nodup, h.listed, fun p q hq => ?_, h.lock, fun p hq => added_snoc (h.added p hq)⟩
  have := h.prof p q hq
  by_cases hl : s.lock = some p
  · rw [if_pos hl] at this ⊢; exact this.quiet he
  · rw [if_neg hl] at this ⊢; exact this.quiet he

theorem each_prof (s : St) (f : Prof → Prof) (hl : ∀ p, p ∈ s.first ↔ (s.prof p).isSome) (p : Nat) : (s.each f).prof p = (s.prof p).map f := by
  show (if p ∈ s.first then (s.prof p).map f else s.prof p) = _
  by_cases hp : p ∈ s.first
  · rw [if_pos hp]
  · rw [if_neg hp]
    cases hq : s.prof p with
    | none => rfl
    | some q => exact absurd ((hl p).2 (by rw [hq]; rfl)) hp

theorem Inv.each {tr : Trace} {s : St} (h : Inv tr s) {e : Ev} (hp : Pre tr e) (f : Prof → Prof) (hlock : s.lock = none)
    (hf : ∀ l w m k tr2 q, Sees tr l w m k tr2 q → Sees (tr ++ [e]) l w m k (tr2 ++ [e]) (f q)) : Inv (tr ++ [e]) (s.each f) := by
  have hl : ∀ p, (s.each f).lock ≠ some p := fun p hc => by rw [show (s.each f).lock = s.lock from rfl, hlock] at hc; cases hc
  refine ⟨h.wf.snoc hp, h.nodup, fun p => ?_, fun p q hq => ?_, fun p hc => absurd hc (hl p), fun p hq => ?_⟩
  · rw [each_prof s f h.listed, Option.isSome_map]; exact h.listed p
  · rw [each_prof s f h.listed] at hq
    rw [if_neg (hl p)]
    obtain ⟨q0, hq0, rfl⟩ := Option.map_eq_some_iff.1 hq
    have := h.prof p q0 hq0
    rw [if_neg (by rw [hlock]; exact fun hc => by cases hc)] at this
    exact this.snoc fun _ _ _ _ _ hs => hf _ _ _ _ _ _ hs
  · rw [each_prof s f h.listed, Option.isSome_map] at hq; exact added_snoc (h.added p hq)

theorem unlink_some {p : Nat} : ∀ {l l' : List Nat}, unlink p l = some l' → l.Nodup → p ∈ l ∧ l'.Nodup ∧ ∀ x, x ∈ l' ↔ x ∈ l ∧ x ≠ p
  | [], _, h, _ => by cases h
  | q :: l, l', h, hn => by
    obtain ⟨hq, hn⟩ := List.nodup_cons.1 hn
    simp only [unlink] at h
    by_cases he : q = p
    · rw [if_pos he, Option.some.injEq] at h
      subst h; subst he
      refine ⟨List.mem_cons_self .., hn, fun x => ?_⟩
      rw [List.mem_cons]
      exact ⟨fun hx => ⟨Or.inr hx, fun e => hq (e ▸ hx)⟩, fun ⟨a, b⟩ => a.resolve_left b⟩
    · rw [if_neg he] at h
      obtain ⟨l0, h0, rfl⟩ := Option.map_eq_some_iff.1 h
      obtain ⟨h1, h2, h3⟩ := unlink_some h0 hn
      refine ⟨List.mem_cons_of_mem _ h1, List.nodup_cons.2 ⟨fun hc => hq ((h3 q).1 hc).1, h2⟩, fun x => ?_⟩
      rw [List.mem_cons, List.mem_cons, h3]
      constructor
      · rintro (rfl | ⟨a, b⟩)
        · exact ⟨Or.inl rfl, he⟩
        · exact ⟨Or.inr a, b⟩
      · rintro ⟨rfl | a, b⟩
        · exact Or.inl rfl
        · exact Or.inr ⟨a, b⟩

theorem append_unique {p : Nat} {a a' b b' : Trace} {x x' : Ev} (h : a ++ x :: b = a' ++ x' :: b') (hx : x.adds p = true) (hx' : x'.adds p = true)
    (ha : ∀ e ∈ a, e.adds p = false) (ha' : ∀ e ∈ a', e.adds p = false) : a = a' ∧ x = x' ∧ b = b' := by
  induction a generalizing a' with
  | nil =>
    cases a' with
    | nil => cases h; exact ⟨rfl, rfl, rfl⟩
    | cons y a' => cases h; rw [ha' _ (List.mem_cons_self ..)] at hx; cases hx
  | cons z a ih =>
    cases a' with
    | nil => cases h; rw [ha _ (List.mem_cons_self ..)] at hx'; cases hx'
    | cons y a' =>
      rw [List.cons_append, List.cons_append, List.cons.injEq] at h
      obtain ⟨rfl, h⟩ := h
      obtain ⟨rfl, h2⟩ := ih h (fun e he => ha e (List.mem_cons_of_mem _ he)) (fun e he => ha' e (List.mem_cons_of_mem _ he))
      exact ⟨rfl, h2⟩

/-- A profile is started once. -/
theorem Run.once {tr : Trace} {s : St} (h : Run tr s) (p : Nat) : ∀ a m k b, tr = a ++ .add p m k :: b →
    (∀ e ∈ a, e.adds p = false) ∧ ∀ e ∈ b, e.adds p = false := by
  induction h with
  | init => intro a m k b h; cases a <;> cases h
  | @step tr s s' e o h hp hs ih =>
    intro a m k b he
    rcases List.eq_nil_or_concat b with rfl | ⟨b, z, rfl⟩
    · have he : tr ++ [e] = a ++ [.add p m k] := he
      obtain ⟨rfl, h2⟩ := List.append_inj' he rfl
      cases h2
      exact ⟨hp, fun e he => by cases he⟩
    · rw [List.concat_eq_append] at he ⊢
      have he : tr ++ [e] = (a ++ .add p m k :: b) ++ [z] := by rw [he]; simp only [List.append_assoc, List.cons_append]
      obtain ⟨rfl, h2⟩ := List.append_inj' he rfl
      cases h2
      obtain ⟨h1, h2⟩ := ih a m k b rfl
      refine ⟨h1, fun x hx => ?_⟩
      rcases List.mem_append.1 hx with hx | hx
      · exact h2 x hx
      · rw [List.mem_singleton.1 hx]
        cases e with
        | add p' m' k' =>
          refine beq_eq_false_iff_ne.2 ?_
          rintro rfl
          have := hp (.add p' m k) (List.mem_append_right _ (List.mem_cons_self ..))
          rw [show Ev.adds p' (.add p' m k) = true from beq_self_eq_true p'] at this; cases this
        | _ => rfl

theorem Run.inv {tr : Trace} {s : St} (h : Run tr s) : Inv tr s := by
  induction h with
  | init => exact ⟨⟨fun _ h => (by cases h), fun _ h => (by cases h), fun _ h => (by cases h)⟩, List.nodup_nil,
      fun _ => ⟨fun h => (by cases h), fun h => (by cases h)⟩, fun _ _ h => (by cases h), fun _ h => (by cases h), fun _ h => (by cases h)⟩
  | @step tr s s' e o hr hp hs ih =>
    cases e with
    | malloc x i w =>
      simp only [Lifetime.step] at hs
      split at hs
      · cases hs
      · rename_i hl; cases hs
        exact ih.each hp _ (by cases h9 : s.lock <;> simp_all) fun _ _ _ _ _ _ hq => hq.malloc ih.wf hp
    | free x st t w =>
      simp only [Lifetime.step] at hs
      split at hs
      · cases hs
      · rename_i hl; cases hs
        exact ih.each hp _ (by cases h9 : s.lock <;> simp_all) fun _ _ _ _ _ _ hq => hq.free hp.2
    | register x => cases hs; exact ih.quiet hp rfl
    | unregister x => cases hs; exact ih.quiet hp rfl
    | add p m k =>
      simp only [Lifetime.step] at hs
      split at hs
      · cases hs
      · rename_i hl
        have hlock : s.lock = none := by cases h9 : s.lock <;> simp_all
        cases hs
        have hnone : s.prof p = none := by
          cases hq : s.prof p with
          | none => rfl
          | some q =>
            obtain ⟨e, h1, h2⟩ := ih.added p (by rw [hq]; rfl)
            rw [hp e h1] at h2; cases h2
        refine ⟨ih.wf.snoc hp, List.nodup_cons.2 ⟨fun hc => ?_, ih.nodup⟩, fun p' => ?_, fun p' q hq => ?_, fun p' hc => ?_, fun p' hq => ?_⟩
        · have := (ih.listed p).1 hc; rw [hnone] at this; cases this
        · show p' ∈ p :: s.first ↔ (upd s.prof p _ p').isSome
          by_cases he : p' = p
          · rw [he, upd_same]; exact ⟨fun _ => rfl, fun _ => List.mem_cons_self ..⟩
          · rw [upd_ne _ _ he, List.mem_cons, ← ih.listed]
            exact ⟨fun h => h.resolve_left he, Or.inr⟩
        · replace hq : upd s.prof p _ p' = some q := hq
          show if some p = some p' then _ else _
          by_cases he : p' = p
          · subst he
            rw [if_pos rfl]
            rw [upd_same] at hq; cases hq
            exact ⟨tr, m, k, [], rfl, fun e he => (by cases he), rfl⟩
          · rw [if_neg (fun hc => he (by cases hc; rfl))]
            rw [upd_ne _ _ he] at hq
            have := ih.prof p' q hq
            rw [if_neg (by rw [hlock]; exact fun hc => by cases hc)] at this
            exact this.quiet rfl
        · cases (show some p = some p' from hc)
          show (upd s.prof p _ p).isSome
          rw [upd_same]; rfl
        · replace hq : (upd s.prof p _ p').isSome := hq
          by_cases he : p' = p
          · rw [he]; exact ⟨_, List.mem_append_right _ (List.mem_singleton.2 rfl), beq_self_eq_true p⟩
          · rw [upd_ne _ _ he] at hq; exact added_snoc (ih.added p' hq)
    | seed p l w =>
      simp only [Lifetime.step] at hs
      split at hs
      · rename_i hl; cases hs
        refine ⟨ih.wf.snoc hp, ih.nodup, fun p' => ?_, fun p' q hq => ?_, fun p' hc => (by cases hc), fun p' hq => ?_⟩
        · show p' ∈ s.first ↔ (upd s.prof p _ p').isSome
          by_cases he : p' = p
          · rw [he, upd_same, Option.isSome_map]; exact ih.listed p
          · rw [upd_ne _ _ he]; exact ih.listed p'
        · replace hq : upd s.prof p _ p' = some q := hq
          rw [if_neg (by exact fun hc => by cases hc)]
          by_cases he : p' = p
          · subst he
            rw [upd_same] at hq
            obtain ⟨q0, hq0, rfl⟩ := Option.map_eq_some_iff.1 hq
            have hst := ih.prof p' q0 hq0
            rw [if_pos hl] at hst
            obtain ⟨tr0, m, k, tr1, hd, h1, rfl⟩ := hst
            obtain ⟨tr0', m', k', tr1', hd', hsd⟩ := hp
            have huniq : tr0 = tr0' ∧ Ev.add p' m k = Ev.add p' m' k' ∧ tr1 = tr1' :=
              append_unique (p := p') (hd.symm.trans hd') (beq_self_eq_true p') (beq_self_eq_true p') (hr.once p' _ _ _ _ hd).1 (hr.once p' _ _ _ _ hd').1
            obtain ⟨rfl, h2, rfl⟩ := huniq
            cases h2
            subst hd
            refine ⟨tr0, m, k, tr1, l, w, [], by simp only [List.append_assoc, List.cons_append], h1, hsd, Sees.start _ _ _ _ _ hsd.1 fun x hx => ?_⟩
            obtain ⟨w', hw'⟩ := (hsd.2.2 x hx).2.2
            exact ⟨w', List.mem_append_left _ hw'⟩
          · rw [upd_ne _ _ he] at hq
            have := ih.prof p' q hq
            rw [if_neg (by rw [hl]; exact fun hc => he (by cases hc; rfl))] at this
            exact this.quiet rfl
        · replace hq : (upd s.prof p _ p').isSome := hq
          by_cases he : p' = p
          · rw [he, upd_same, Option.isSome_map] at hq; rw [he]; exact added_snoc (ih.added p hq)
          · rw [upd_ne _ _ he] at hq; exact added_snoc (ih.added p' hq)
      · cases hs
    | stop p t =>
      simp only [Lifetime.step] at hs
      split at hs
      · cases hs
      · rename_i hl
        have hlock : s.lock = none := by cases h9 : s.lock <;> simp_all
        split at hs
        · rename_i l q hu hq0
          cases hs
          obtain ⟨h1, h2, h3⟩ := unlink_some hu ih.nodup
          refine ⟨ih.wf.snoc hp, h2, fun p' => ?_, fun p' q' hq => ?_, fun p' hc => ?_, fun p' hq => ?_⟩
          · show p' ∈ l ↔ (upd s.prof p none p').isSome
            rw [h3]
            by_cases he : p' = p
            · rw [he, upd_same]; exact ⟨fun h => absurd rfl h.2, fun h => (by cases h)⟩
            · rw [upd_ne _ _ he, ← ih.listed]; exact ⟨fun h => h.1, fun h => ⟨h, he⟩⟩
          · replace hq : upd s.prof p none p' = some q' := hq
            show if s.lock = some p' then _ else _
            rw [if_neg (by rw [hlock]; exact fun hc => by cases hc)]
            by_cases he : p' = p
            · rw [he, upd_same] at hq; cases hq
            · rw [upd_ne _ _ he] at hq
              have := ih.prof p' q' hq
              rw [if_neg (by rw [hlock]; exact fun hc => by cases hc)] at this
              exact this.quiet rfl
          · rw [show s.lock = some p' from hc] at hlock; cases hlock
          · replace hq : (upd s.prof p none p').isSome := hq
            by_cases he : p' = p
            · rw [he, upd_same] at hq; cases hq
            · rw [upd_ne _ _ he] at hq; exact added_snoc (ih.added p' hq)
        · cases hs

end Verif.Lifetime
