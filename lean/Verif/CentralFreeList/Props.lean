import Verif.CentralFreeList.Lemmas5
/-!
Properties of the central free list of a size class (C25): for every class the size-class tables allow,
every number of concurrent callers, every interleaving of their locked sections with the page-heap calls in
between, every user write to the objects that are out, and every batch.
-/
namespace Verif.CentralFreeList
open Verif.Span (Geo Mem IsObj InObj)
open Verif.HintedLists (HL)

variable {k : Geo}

theorem mem_outOf {x : World} {p o : Nat} : o ∈ outOf k x p ↔ (o ∈ x.held ∨ o ∈ inHand x.c) ∧
    p * k.pageSize ≤ o ∧ o < (p + k.numPages) * k.pageSize := by
  unfold outOf
  rw [List.mem_filter, List.mem_append]
  have : (spanAt k p).start = p * k.pageSize := rfl
  rw [this, Nat.add_mul]
  simp

theorem live_perm (hk : k.OK) {x : World} {live : Nat → List Nat} (h : Inv k x live) {p : Nat} (hp : p ∈ x.sp) :
    (live p).Perm (outOf k x p) := by
  obtain ⟨s1, s2, s3⟩ := h.spans hk
  have hnd := h.nodup hk
  have hnd' : (outOf k x p).Nodup := hnd.filter _
  rw [List.perm_ext_iff_of_nodup (s3 p hp).1 hnd']
  intro o
  rw [mem_outOf]
  have hsz := hk.sizePos
  constructor
  · intro ho
    have hr := obj_range hk ((s3 p hp).2.1 o ho)
    refine ⟨?_, hr.1, by omega⟩
    rw [← List.mem_append]
    exact h.perm.mem_iff.1 (List.mem_flatMap.2 ⟨p, hp, ho⟩)
  · rintro ⟨ho, h1, h2⟩
    rw [← List.mem_append] at ho
    obtain ⟨q, hq, hoq⟩ := List.mem_flatMap.1 (h.perm.mem_iff.2 ho)
    have hr := obj_range hk ((s3 q hq).2.1 o hoq)
    have : q = p := by
      apply Classical.byContradiction
      intro hne
      rcases s2 q hq p hp hne with h' | h'
      · have := Nat.mul_le_mul_right k.pageSize h'; omega
      · have := Nat.mul_le_mul_right k.pageSize h'; omega
    exact this ▸ hoq

theorem live_len (hk : k.OK) {x : World} {live : Nat → List Nat} (h : Inv k x live) {p : Nat} (hp : p ∈ x.sp) :
    (live p).length = (outOf k x p).length := (live_perm hk h hp).length_eq

/-- **C25.** Nothing goes wrong: in every reachable state, whatever callers and page heap may do is defined;
no assertion of the central free list fails and no object is taken for corrupted or doubly freed. -/
theorem step_defined (hk : k.OK) (x : World) (h : Reach k x) (e : Ev) (hp : Pre k x e) :
    ∃ x' o, step k x e = some (x', o) := by
  obtain ⟨live, hi⟩ := h.inv hk
  obtain ⟨x', o, _, e, _⟩ := step_inv hk hi hp
  exact ⟨x', o, e⟩

/-- **C25.** The objects that are out (with callers, or in the batch of a call waiting for the page heap) are
distinct objects of the spans lent by the page heap, and no two of them share a byte. -/
theorem objects_disjoint (hk : k.OK) (x : World) (h : Reach k x) :
    (x.held ++ inHand x.c).Nodup ∧
    (∀ o ∈ x.held ++ inHand x.c, ∃ p ∈ x.sp, IsObj (spanAt k p) o ∧ p * k.pageSize ≤ o ∧
      o + k.size ≤ (p + k.numPages) * k.pageSize) ∧
    ∀ o ∈ x.held ++ inHand x.c, ∀ o' ∈ x.held ++ inHand x.c, o ≠ o' → o + k.size ≤ o' ∨ o' + k.size ≤ o := by
  obtain ⟨live, hi⟩ := h.inv hk
  obtain ⟨s1, s2, s3⟩ := hi.spans hk
  have hobj : ∀ o ∈ x.held ++ inHand x.c, ∃ p ∈ x.sp, IsObj (spanAt k p) o := by
    intro o ho
    obtain ⟨p, hp, hop⟩ := List.mem_flatMap.1 (hi.perm.mem_iff.2 ho)
    exact ⟨p, hp, (s3 p hp).2.1 o hop⟩
  refine ⟨hi.nodup hk, ?_, ?_⟩
  · intro o ho
    obtain ⟨p, hp, h1⟩ := hobj o ho
    exact ⟨p, hp, h1, (obj_range hk h1).1, (obj_range hk h1).2⟩
  · intro o ho o' ho' hne
    obtain ⟨p, hp, h1⟩ := hobj o ho
    obtain ⟨q, hq, h2⟩ := hobj o' ho'
    have r1 := obj_range hk h1
    have r2 := obj_range hk h2
    by_cases hpq : p = q
    · subst hpq
      obtain ⟨i, _, e1⟩ := h1
      obtain ⟨j, _, e2⟩ := h2
      have hs : (spanAt k p).size = k.size := rfl
      rw [hs] at e1 e2
      rcases Nat.lt_trichotomy i j with h' | h' | h'
      · have := Nat.mul_le_mul_right k.size (show i + 1 ≤ j from h')
        rw [Nat.add_mul] at this; omega
      · subst h'; omega
      · have := Nat.mul_le_mul_right k.size (show j + 1 ≤ i from h')
        rw [Nat.add_mul] at this; omega
    · rcases s2 p hp q hq hpq with h' | h'
      · have := Nat.mul_le_mul_right k.pageSize h'; omega
      · have := Nat.mul_le_mul_right k.pageSize h'; omega

/-- **C25.** The spans lent by the page heap share no page, and none is kept without need: each has at least
one object out. -/
theorem no_idle_span (hk : k.OK) (x : World) (h : Reach k x) :
    x.sp.Nodup ∧ (∀ p ∈ x.sp, ∀ q ∈ x.sp, p ≠ q → Apart k p q) ∧
    ∀ p ∈ x.sp, 0 < (outOf k x p).length ∧ (outOf k x p).length ≤ k.count := by
  obtain ⟨live, hi⟩ := h.inv hk
  obtain ⟨s1, s2, s3⟩ := hi.spans hk
  refine ⟨s1, s2, fun p hp => ?_⟩
  rw [← live_len hk hi hp]
  exact (s3 p hp).2.2

/-- **C25.** Inserting a batch takes exactly these objects from the callers and gives back to the page heap,
each once, exactly the spans all of whose objects are now free; the contents of all objects that stay out are
untouched. -/
theorem insert_exact (hk : k.OK) (x : World) (h : Reach k x) (batch : List Nat) (hp : Pre k x (.insert batch)) :
    ∃ x' freed, step k x (.insert batch) = some (x', ⟨none, freed⟩) ∧
      (∀ o, o ∈ x'.held ↔ o ∈ x.held ∧ o ∉ batch) ∧ inHand x'.c = inHand x.c ∧
      (∀ p, p ∈ x'.sp ↔ p ∈ x.sp ∧ p ∉ freed) ∧ freed.Nodup ∧
      (∀ p, p ∈ freed ↔ p ∈ x.sp ∧ ∀ o ∈ outOf k x p, o ∈ batch) ∧
      (∀ p ∈ x.sp, ∀ o, IsObj (spanAt k p) o → o ∈ x'.held ∨ o ∈ inHand x'.c →
        ∀ a, InObj (spanAt k p) o a → x'.c.w a = x.c.w a) ∧ x'.c.pend = x.c.pend ∧
      (∀ a, (∀ p ∈ x.sp, ∀ o, IsObj (spanAt k p) o → ¬ InObj (spanAt k p) o a) → x'.c.w a = x.c.w a) := by
  obtain ⟨live, hi⟩ := h.inv hk
  obtain ⟨c', freed, live', e1, hi', n1, f1, _, v1, m1, p1, r1⟩ := insert_spec hk hi hp
  refine ⟨_, freed, by simp only [step, e1, Option.map_some]; rfl, ?_, ?_, ?_, n1, ?_, ?_, p1, r1⟩
  · intro o; simp [List.mem_filter]
  · show c'.pend.flatMap _ = _
    rw [p1]; rfl
  · intro p; simp [List.mem_filter]
  · intro p
    rw [f1]
    constructor
    · rintro ⟨hp', h2⟩
      exact ⟨hp', fun o ho => h2 o ((live_perm hk hi hp').mem_iff.2 ho)⟩
    · rintro ⟨hp', h2⟩
      exact ⟨hp', fun o ho => h2 o ((live_perm hk hi hp').mem_iff.1 ho)⟩
  · intro p hps o ho hout a ha
    have hin : inHand c' = inHand x.c := by unfold inHand; rw [p1]
    have hnd := List.nodup_append.1 (hi.nodup hk)
    have hnb : o ∉ batch := by
      rcases hout with h' | h'
      · have := (List.mem_filter.1 h').2
        simpa using this
      · intro hb
        rw [show inHand c' = inHand x.c from hin] at h'
        exact hnd.2.2 o (hp.2.2.2 o hb) o h' rfl
    have hox : o ∈ x.held ++ inHand x.c := by
      rcases hout with h' | h'
      · exact List.mem_append_left _ (List.mem_filter.1 h').1
      · rw [show inHand c' = inHand x.c from hin] at h'
        exact List.mem_append_right _ h'
    obtain ⟨q, hq, hoq⟩ := List.mem_flatMap.1 (hi.perm.mem_iff.2 hox)
    have : p = q := hi.obj_span hk hps hq ho (((hi.spans hk).2.2 q hq).2.1 o hoq)
    subst this
    exact m1 p hps o hoq hnb a ha

theorem step_remove {x : World} {n : Nat} {c' : Cfl} {r : Option (List Nat)} (e : remove k x.c n = some (c', r)) :
    step k x (.remove n) = some (⟨c', x.sp, r.getD [] ++ x.held⟩, ⟨r, []⟩) := by
  simp only [step, e, Option.map_some]

/-- **C25.** A `RemoveRange` for `n` objects, up to where it returns or drops the lock to ask the page heap
for a span: if it returns, it returns exactly `n` objects, none of which was out; if it asks the page heap,
the objects it has so far (fewer than `n`, none of which was out) stay in its hands and no span has anything
left to give.  No memory is written. -/
theorem remove_exact (hk : k.OK) (x : World) (h : Reach k x) (n : Nat) (hp : Pre k x (.remove n)) :
    ∃ x' r, step k x (.remove n) = some (x', ⟨r, []⟩) ∧ x'.sp = x.sp ∧ x'.c.w = x.c.w ∧
      ((∃ got, r = some got ∧ got.length = n ∧ (got ++ x.held ++ inHand x.c).Nodup ∧ x'.held = got ++ x.held ∧
          x'.c.pend = x.c.pend) ∨
       (∃ got want, r = none ∧ x'.c.pend = ⟨got, want⟩ :: x.c.pend ∧ 0 < want ∧ got.length + want = n ∧
          (got ++ x.held ++ inHand x.c).Nodup ∧ x'.held = x.held ∧
          ∀ p ∈ x'.sp, (outOf k x' p).length = k.count)) := by
  obtain ⟨live, hi⟩ := h.inv hk
  obtain ⟨c', r, live', e1, hi', w1, hr⟩ := remove_spec hk hi hp
  have hnd := hi'.nodup hk
  refine ⟨_, r, step_remove e1, rfl, w1, ?_⟩
  rcases hr with ⟨got, rfl, hl, p1, _⟩ | ⟨got, want, rfl, p1, hw, hl, _, hfull⟩
  · refine Or.inl ⟨got, rfl, hl, ?_, rfl, p1⟩
    have : inHand c' = inHand x.c := by unfold inHand; rw [p1]
    rw [← this]; exact hnd
  · refine Or.inr ⟨got, want, rfl, p1, hw, hl, ?_, rfl, ?_⟩
    · have : inHand c' = got ++ inHand x.c := by unfold inHand; rw [p1]; rfl
      have h2 : (([] ++ x.held) ++ inHand c').Nodup := hnd
      rw [this] at h2
      refine (List.Perm.nodup_iff ?_).1 h2
      rw [List.perm_iff_count]; intro a; simp only [List.count_append, List.count_nil]; omega
    · intro p hps
      rw [← live_len hk hi' hps]
      exact hfull p hps

/-- **C25.** The rest of that call, when the page heap answers: with a span `p`, the call returns what it had
plus as many fresh objects of `p` as fit, so at least one object and never more than were asked for; with
null, it returns what it had.  None of the objects was with any other caller.  Memory outside the objects of
the new span is not written. -/
theorem populate_exact (hk : k.OK) (x : World) (h : Reach k x) (j : Nat) (span : Option Nat)
    (hp : Pre k x (.populate j span)) :
    ∃ x' r pd new, step k x (.populate j span) = some (x', ⟨some r, []⟩) ∧ x.c.pend[j]? = some pd ∧
      r = pd.got ++ new ∧ r.length ≤ pd.got.length + pd.want ∧ (r ++ x.held).Nodup ∧
      x'.sp = span.toList ++ x.sp ∧ x'.held = r ++ x.held ∧
      (span = none → new = []) ∧
      (∀ p, span = some p → 0 < new.length ∧ new.length = min pd.want k.count ∧ ∀ o ∈ new, IsObj (spanAt k p) o) ∧
      (∀ a, (∀ p, span = some p → ∀ o, IsObj (spanAt k p) o → ¬ InObj (spanAt k p) o a) →
        x'.c.w a = x.c.w a) := by
  obtain ⟨live, hi⟩ := h.inv hk
  obtain ⟨c', r, live', pd, new, e1, e2, e3, hi', hn, hs, hw⟩ := populate_spec hk hi hp.1 hp.2
  have hwant := (hi.pend pd (List.mem_of_getElem? e2)).1
  have hcp := hk.countPos
  refine ⟨⟨c', span.toList ++ x.sp, r ++ x.held⟩, r, pd, new, by simp only [step, e1, Option.map_some], e2, e3, ?_, ?_, rfl, rfl, hn, ?_, hw⟩
  · rw [e3, List.length_append]
    cases span with
    | none => rw [hn rfl]; simp
    | some p => have := (hs p rfl).1; omega
  · exact (List.nodup_append.1 (hi'.nodup hk)).1
  · intro p e
    obtain ⟨a, b⟩ := hs p e
    exact ⟨by omega, a, b⟩

/-- The class of span utilisation used for ordering: with up to 16 objects per span the number of objects
out, otherwise its bit width; both saturate at 8. -/
def utilClass (k : Geo) (n : Nat) : Nat := min 8 (if k.count ≤ 16 then n else bitWidth n)

theorem ix_util {n : Nat} : ix k n = 8 - utilClass k n := by
  unfold ix utilClass
  split <;> omega

/-- **C25.** Spans with something free stay findable: a span is on one of the lists exactly when it has a
free object (and more than one object per span); it is on exactly one list, once, and which one is
determined by its utilisation class: the fuller the span, the lower the list. -/
theorem findable_exact (hk : k.OK) (h1 : k.count ≠ 1) (x : World) (h : Reach k x) :
    (∀ p i, p ∈ x.c.hl.lists i ↔ p ∈ x.sp ∧ (outOf k x p).length < k.count ∧
      i = 8 - utilClass k (outOf k x p).length) ∧ ∀ i, (x.c.hl.lists i).Nodup := by
  obtain ⟨live, hi⟩ := h.inv hk
  obtain ⟨hk1, _⟩ := hi.multi h1
  refine ⟨fun p i => ?_, (HintedLists.index_exact hk1.lists.reach).2.2.1⟩
  rw [hk1.lists.on p i]
  constructor
  · rintro ⟨hp, b, c⟩
    rw [live_len hk hi hp] at b c
    rw [ix_util] at c
    exact ⟨hp, b, c⟩
  · rintro ⟨hp, b, c⟩
    rw [← live_len hk hi hp, ← ix_util] at c
    rw [← live_len hk hi hp] at b
    exact ⟨hp, b, c⟩

/-- **C25.** Objects are taken from the fullest spans first: the first object a `RemoveRange` takes from the
lists is of a span no other span with free objects exceeds in utilisation class. -/
theorem fullest_first (hk : k.OK) (x : World) (h : Reach k x) (n : Nat) (hp : Pre k x (.remove n))
    (x' : World) (r : Option (List Nat)) (hs : step k x (.remove n) = some (x', ⟨r, []⟩)) (o : Nat)
    (ho : (r.getD (x'.c.pend.head?.elim [] Pend.got)).head? = some o) :
    ∃ p ∈ x.sp, IsObj (spanAt k p) o ∧ (outOf k x p).length < k.count ∧
      ∀ q ∈ x.sp, (outOf k x q).length < k.count →
        utilClass k (outOf k x q).length ≤ utilClass k (outOf k x p).length := by
  obtain ⟨live, hi⟩ := h.inv hk
  obtain ⟨c', r', live', e1, hi', w1, hr⟩ := remove_spec hk hi hp
  rw [step_remove e1] at hs
  simp only [Option.some.injEq, Prod.mk.injEq, Out.mk.injEq, and_true] at hs
  obtain ⟨rfl, rfl⟩ := hs
  have fb : FirstBest k x.sp live (r'.getD (c'.pend.head?.elim [] Pend.got)) := by
    rcases hr with ⟨got, rfl, hl, p1, b1⟩ | ⟨got, want, rfl, p1, hw, hl, b1, hfull⟩
    · exact b1
    · rw [p1]; exact b1
  obtain ⟨p, hps, a, b, c⟩ := fb o ho
  rw [live_len hk hi hps] at b
  refine ⟨p, hps, a, b, ?_⟩
  intro q hq hqf
  have := c q hq (by rw [live_len hk hi hq]; exact hqf)
  rw [live_len hk hi hps, live_len hk hi hq, ix_util, ix_util] at this
  have u1 : utilClass k (outOf k x p).length ≤ 8 := Nat.min_le_left _ _
  have u2 : utilClass k (outOf k x q).length ≤ 8 := Nat.min_le_left _ _
  have l1 : (outOf k x q).length > 0 := by
    have := (hi.spans hk).2.2 q hq
    rw [← live_len hk hi hq]; omega
  omega

theorem sum_out (hk : k.OK) {x : World} {live : Nat → List Nat} (h : Inv k x live) :
    (x.sp.map fun p => (outOf k x p).length).sum = (x.held ++ inHand x.c).length := by
  rw [← h.perm.length_eq, List.length_flatMap]
  congr 1
  apply List.map_congr_left
  intro p hp
  exact (live_len hk h hp).symm

/-- **C25.** The reported statistics are exact in every state: `length()` is the number of objects of the
lent spans that are not with callers (objects in the hands of a waiting call count as free, since the
counter is lowered when the call returns); the span counts, the capacity, the overhead, each bucket of the
utilisation histogram and each list length are those of the lent spans. -/
theorem stats_exact (hk : k.OK) (h1 : k.count ≠ 1) (x : World) (h : Reach k x) :
    length x.c + (x.held.length : Int) = ((x.sp.length * k.count : Nat) : Int) ∧
    length x.c = (((x.sp.map fun p => k.count - (outOf k x p).length).sum + (inHand x.c).length : Nat) : Int) ∧
    numSpans x.c = x.sp.length ∧ objCapacity k x.c = x.sp.length * k.count ∧
    overheadBytes k x.c = x.sp.length * (k.numPages * k.pageSize % k.size) ∧
    (∀ b, 0 < b → b ≤ 16 → numSpansWith x.c b =
      some ((x.sp.countP fun p => decide (bitWidth (outOf k x p).length = b) : Nat) : Int)) ∧
    (∀ i, i < 8 → numSpansInList x.c i = some (x.sp.countP fun p =>
      decide ((outOf k x p).length < k.count ∧ i = 8 - utilClass k (outOf k x p).length))) := by
  obtain ⟨live, hi⟩ := h.inv hk
  obtain ⟨hk1, h2, h3⟩ := hi.multi h1
  have hns : numSpans x.c = x.sp.length := by
    unfold numSpans
    rw [if_neg (by omega)]
    omega
  have hcp := hk.countPos
  have hsp := hk.sizePos
  refine ⟨h2, ?_, hns, ?_, ?_, ?_, ?_⟩
  · have hsum := sum_out hk hi
    have hsub : ∀ (L : List Nat), (∀ p ∈ L, (outOf k x p).length ≤ k.count) →
        (L.map fun p => k.count - (outOf k x p).length).sum + (L.map fun p => (outOf k x p).length).sum =
          L.length * k.count := by
      intro L
      induction L with
      | nil => intro _; simp
      | cons p L ih =>
        intro hL
        have := ih fun q hq => hL q (List.mem_cons_of_mem _ hq)
        have := hL p (by simp)
        simp only [List.map_cons, List.sum_cons, List.length_cons, Nat.add_mul]
        omega
    have := hsub x.sp fun p hp => ((no_idle_span hk x h).2.2 p hp).2
    rw [List.length_append] at hsum
    have h2' : length x.c + (x.held.length : Int) = ((x.sp.length * k.count : Nat) : Int) := h2
    omega
  · unfold objCapacity; rw [if_neg (by omega), hns]
  · unfold overheadBytes; rw [if_neg (by omega), hns]
  · intro b hb hb'
    unfold numSpansWith kSpanUtilBucketCapacity
    rw [if_pos ⟨hb, by omega⟩, hk1.hist (b - 1)]
    congr 2
    apply List.countP_congr
    intro p hp
    show decide (bitWidth (live p).length = b - 1 + 1) = true ↔ _
    rw [live_len hk hi hp, show b - 1 + 1 = b by omega]
  · intro i hi8
    unfold numSpansInList HintedLists.sizeOfList kNumLists
    rw [if_pos hi8]
    congr 1
    have hf := findable_exact hk h1 x h
    rw [List.countP_eq_length_filter]
    apply List.Perm.length_eq
    rw [List.perm_ext_iff_of_nodup (hf.2 i) (hk1.nodup.filter _)]
    intro p
    rw [hf.1 p i, List.mem_filter]
    simp

/-- **C25.** Across any step, the contents of an object that stays with its caller change only by the users'
own writes. -/
theorem contents_kept (hk : k.OK) (x : World) (h : Reach k x) (e : Ev) (hp : Pre k x e) (he : ∀ w, e ≠ .write w)
    (x' : World) (out : Out) (hs : step k x e = some (x', out)) (o : Nat) (ho : o ∈ x.held) (ho' : o ∈ x'.held)
    (a : Nat) (ha : o ≤ 2 * a ∧ 2 * a < o + k.size) : x'.c.w a = x.c.w a := by
  obtain ⟨live, hi⟩ := h.inv hk
  have hmem : o ∈ x.held ++ inHand x.c := List.mem_append_left _ ho
  obtain ⟨p, hps, hop⟩ := List.mem_flatMap.1 (hi.perm.mem_iff.2 hmem)
  have hobj := ((hi.spans hk).2.2 p hps).2.1 o hop
  cases e with
  | write w => exact absurd rfl (he w)
  | remove n =>
    obtain ⟨x1, r, e1, _, w1, _⟩ := remove_exact hk x h n hp
    rw [e1] at hs; cases hs; rw [w1]
  | populate j span =>
    obtain ⟨x1, r, pd, new, e1, _, _, _, _, _, _, _, _, w1⟩ := populate_exact hk x h j span hp
    rw [e1] at hs; cases hs
    apply w1
    intro q hq o2 ho2
    exact apart_objs hk (hp.2 q hq p hps).symm hobj ho2 ha
  | insert batch =>
    obtain ⟨x1, freed, e1, _, _, _, _, _, w1, _⟩ := insert_exact hk x h batch hp
    rw [e1] at hs; cases hs
    exact w1 p hps o hobj (Or.inl ho') a ha

/-- **C25.** The assertion that densely used spans have one page (central_freelist.cc:123-125, required by
the page heap's placement) holds for every class of every shipped size-class table: more than 16 objects per
span (`kFewObjectsAllocMaxLimit`) only with single-page spans. -/
theorem shipped_dense_one_page : ∀ t ∈ SizeMap.shippedTables, ∀ e ∈ t.2.tail,
    16 < e.bytes / e.size → e.bytes / 2 ^ t.1 = 1 := by decide +kernel

/-! ### The hypotheses are met: histories run with all preconditions checked -/

/-- Checker for `Pre` (without user writes). -/
def preB (k : Geo) (x : World) : Ev → Bool
  | .write _ => false
  | .remove n => decide (0 < n ∧ n ≤ kMaxObjectsToMove)
  | .populate j span => decide (j < x.c.pend.length) &&
      (match span with
       | none => true
       | some p => x.sp.all fun q => decide (p + k.numPages ≤ q ∨ q + k.numPages ≤ p))
  | .insert b => decide (b ≠ [] ∧ b.length ≤ kMaxObjectsToMove ∧ b.Nodup ∧ ∀ o ∈ b, o ∈ x.held)

theorem preB_ok {x : World} {e : Ev} (h : preB k x e = true) : Pre k x e := by
  cases e with
  | write w => simp [preB] at h
  | remove n => simpa [preB, Pre] using h
  | populate j span =>
    cases span with
    | none => simpa [preB, Pre] using h
    | some p =>
      simp only [preB, Bool.and_eq_true, decide_eq_true_eq, List.all_eq_true] at h
      refine ⟨h.1, ?_⟩
      intro p' e q hq
      cases e
      exact h.2 q hq
  | insert b => simpa [preB, Pre] using h

def runAll (k : Geo) : World → List Ev → Option (World × List Out)
  | x, [] => some (x, [])
  | x, e :: es =>
    if preB k x e then
      (step k x e).bind fun (x', o) => (runAll k x' es).map fun (y, os) => (y, o :: os)
    else none

theorem runAll_reach : ∀ (es : List Ev) (x y : World) (os : List Out), Reach k x → runAll k x es = some (y, os) →
    Reach k y
  | [], x, y, os, h, e => by cases e; exact h
  | e :: es, x, y, os, h, he => by
    unfold runAll at he
    split at he
    · next hp =>
      obtain ⟨⟨x', o⟩, h1, h2⟩ := Option.bind_eq_some_iff.1 he
      obtain ⟨⟨y', os'⟩, h3, h4⟩ := Option.map_eq_some_iff.1 h2
      cases h4
      exact runAll_reach es x' y os' (Reach.step e h (preB_ok hp) h1) h3
    · cases he

/-- 9 objects of 4480 bytes per span of 5 pages.  Two calls ask at once and wait; the page heap answers the
older one first; a third call empties the first span and waits for another; then frees. -/
def story : List Ev :=
  [.remove 4, .remove 3, .populate 1 (some 100), .remove 2, .populate 0 none, .remove 6,
   .populate 0 (some 200),
   .insert [819200 + 4480, 819200 + 4480 * 2], .insert [1638400, 1638400 + 4480 * 2, 1638400 + 4480]]

def w0 : Mem := fun _ => 0

def view (r : Option (World × List Out)) : Option (List Nat × List Nat × List Out × Int) :=
  r.map fun (x, os) => (x.sp, x.held, os, length x.c)

/-- A class with one object per span (32 pages of 8 KiB). -/
def gOne : Geo := ⟨13, 12, false, 5, 32, 262144, 1⟩
theorem gOne_ok : gOne.OK := by constructor <;> decide

def storyOne : List Ev := [.remove 2, .populate 0 (some 64), .remove 2, .populate 0 (some 0), .insert [64 * 8192, 0]]

def start : World := ⟨init w0, [], []⟩

example : view (runAll Span.gBits start story) = some ([100],
    [846080, 850560, 855040, 837120, 841600, 819200, 832640],
    [⟨none, []⟩, ⟨none, []⟩, ⟨some [819200, 823680, 828160, 832640], []⟩, ⟨some [837120, 841600], []⟩,
     ⟨some [], []⟩, ⟨none, []⟩, ⟨some [846080, 850560, 855040, 1638400, 1642880, 1647360], []⟩,
     ⟨none, []⟩, ⟨none, [200]⟩], 2) := by decide +kernel

example : view (runAll gOne start storyOne) =
    some ([], [], [⟨none, []⟩, ⟨some [524288], []⟩, ⟨none, []⟩, ⟨some [0], []⟩, ⟨none, [64, 0]⟩], 0) := by
  decide +kernel

/-- A class that threads its free objects through themselves: 1024 objects of 8 bytes in one page. -/
example : (view (runAll Span.gList start [.remove 100, .populate 0 (some 7), .remove 3,
    .insert [7 * 8192 + 8, 7 * 8192 + 16], .remove 4])).map (fun (sp, held, _, n) => (sp, held.length, n)) =
    some ([7], 105, 919) := by decide +kernel

theorem mid_some : (runAll Span.gBits start (story.take 6)).isSome = true := by decide +kernel
def mid : World := ((runAll Span.gBits start (story.take 6)).get mid_some).1

/-- A state as in the theorems exists: spans lent, objects out, a call waiting with objects in its hands. -/
example : ∃ x, Reach Span.gBits x ∧ x.sp = [100] ∧ x.held.length = 6 ∧ x.c.pend = [⟨[846080, 850560, 855040], 3⟩] ∧
    Pre Span.gBits x (.populate 0 (some 200)) ∧ Pre Span.gBits x (.insert [819200, 823680]) ∧
    Pre Span.gBits x (.remove 5) := by
  refine ⟨mid, runAll_reach _ _ _ _ (Reach.init w0) (Option.some_get mid_some).symm, ?_⟩
  refine ⟨by decide +kernel, by decide +kernel, by decide +kernel, preB_ok (by decide +kernel),
    preB_ok (by decide +kernel), preB_ok (by decide +kernel)⟩

end Verif.CentralFreeList
