import Verif.TransferCache.Lemmas2
import Verif.TransferCache.Lemmas3
/-!
Properties of the transfer caches (C26): for every class, every number of shards, every capacity, every
interleaving of the locked sections of any number of callers, plunders and resizes, every outcome of the
unlocked reads and of `try_lock`.
-/
namespace Verif.TransferCache
open Verif.Span (Geo Mem IsObj InObj)

variable {k : Geo} {B : Nat}

/-- **C26.** Nothing goes wrong: every step that callers, background thread and page heap may take is
defined, no assertion fails and no array is accessed out of bounds, here and in the central free list. -/
theorem step_defined (hk : k.OK) (hB : B ≤ 128) (y : World) (h : Reach k B y) (e : Ev) (hp : Pre k y e) :
    ∃ y' o, step k B y e = some (y', o) := by
  obtain ⟨y', o, e1, _⟩ := step_K hk hB (h.K hk hB) hp
  exact ⟨y', o, e1⟩

/-- **C26.** No object is lost or duplicated: the objects the central free list has given out are, each
exactly once, with a caller, in a cache, or in a batch on its way down.  The central free list is in one of
its own reachable states, so all its properties (C25) hold. -/
theorem conserved (hk : k.OK) (hB : B ≤ 128) (y : World) (h : Reach k B y) :
    CentralFreeList.Reach k y.x ∧ (y.held ++ y.cached ++ y.flying).Perm y.x.held ∧
      (y.held ++ y.cached ++ y.flying).Nodup := by
  have hK := h.K hk hB
  have hp : (y.held ++ y.cached ++ y.flying).Perm y.x.held := by
    rw [List.perm_iff_count]; intro a
    rw [List.count_append, List.count_append]; exact hK.perm a
  exact ⟨hK.cfl, hp, hp.nodup_iff.2 (hK.nodup hk)⟩

/-- **C26.** `0 ≤ used ≤ capacity ≤ max_capacity` for every cache at every moment, and the number of objects
in a cache is `used`. -/
theorem within_capacity (hk : k.OK) (hB : B ≤ 128) (y : World) (h : Reach k B y) (t : TC) (ht : t ∈ y.t) :
    t.objs.length = t.used ∧ t.used ≤ t.cap ∧ t.cap ≤ t.max :=
  ⟨objs_length, ((h.K hk hB).tc t ht).used, ((h.K hk hB).tc t ht).cap⟩

theorem send_t (y : World) (tc : Bool) (r : List Nat) (c : Option (Nat × Nat)) : (y.send tc r c).t = y.t :=
  (send_x y tc r c).2.1

/-- **C26.** `InsertRange`: the first `min(N, capacity - used)` objects of the batch are in the cache
afterwards (none if the unlocked read said the cache was full), on top of what was there, and exactly the rest
is on its way down.  The callers hold the other objects they held, and nothing else. -/
theorem insert_exact (hk : k.OK) (hB : B ≤ 128) (y : World) (h : Reach k B y) (i : Nat) (batch : List Nat)
    (hint : Bool) (hp : Pre k y (.insert i batch hint)) :
    ∃ y' t t' got, step k B y (.insert i batch hint) = some (y', ⟨none, [], none⟩) ∧ y.t[i]? = some t ∧
      y'.t = y.t.set i t' ∧ got = (if hint then min batch.length (t.cap - t.used) else 0) ∧
      t'.objs = t.objs ++ batch.take got ∧ y'.flying = batch.drop got ++ y.flying ∧
      (∀ o, o ∈ y'.held ↔ o ∈ y.held ∧ o ∉ batch) ∧ y'.x = y.x := by
  obtain ⟨hi, hne, hlen, hnd, hsub⟩ := hp
  obtain ⟨t, ht⟩ := getElem_some hi
  obtain ⟨t', rest, e1, ok, er, eo, _⟩ := insert_spec ((h.K hk hB).tc t (mem_of_get ht)) hne hlen hint
  refine ⟨_, t, t', _, by simp only [step, ht, Option.bind_some, e1, Option.map_some]; rfl, ht, ?_, rfl, eo, ?_, ?_, ?_⟩
  · rw [send_t]
  · rw [(send_x _ _ _ _).2.2.2.1, er]; rfl
  · intro o
    rw [(send_x _ _ _ _).2.2.1]
    simp [List.mem_filter]
  · rw [(send_x _ _ _ _).1]

/-- The three ways a `RemoveRange` on cache `i` ends up with `got`: the newest objects of the cache; the
newest of cache 0, if `i` is a shard; a full batch from the central free list. -/
def GotFrom (y : World) (i n : Nat) (got : List Nat) : Prop :=
  (∃ t rest, y.t[i]? = some t ∧ t.objs = rest ++ got ∧ got.length = min n t.used) ∨
  (i ≠ 0 ∧ ∃ t rest, y.t[0]? = some t ∧ t.objs = rest ++ got ∧ got.length = min n t.used) ∨
  (got.length = n ∧ ∀ o ∈ got, o ∉ y.x.held)

/-- **C26.** `RemoveRange`: it returns between 1 and `n` objects which no caller held before, from the cache,
from the cache below a shard, or from the central free list; or it is waiting in the central free list for
the page heap.  Otherwise the callers' objects are unchanged. -/
theorem remove_exact (hk : k.OK) (hB : B ≤ 128) (y : World) (h : Reach k B y) (i n : Nat) (hint hint0 : Bool)
    (hp : Pre k y (.remove i n hint hint0)) :
    ∃ y' r, step k B y (.remove i n hint hint0) = some (y', ⟨r, [], none⟩) ∧ y'.held = r.getD [] ++ y.held ∧
      y'.flight = y.flight ∧ y'.held.Nodup ∧ y'.x.c.w = y.x.c.w ∧
      ((∃ got, r = some got ∧ 0 < got.length ∧ got.length ≤ n ∧ GotFrom y i n got) ∨
       (r = none ∧ y'.t = y.t ∧ ∃ pd, y'.x.c.pend = pd :: y.x.c.pend)) := by
  have hK := h.K hk hB
  obtain ⟨y', o, e1, hK'⟩ := step_K hk hB hK hp
  have hnd : y'.held.Nodup := by
    rw [List.nodup_iff_count]; intro b
    have := hK'.counts hk b; omega
  obtain ⟨hi, hn0, hn1⟩ := hp
  obtain ⟨t, ht⟩ := getElem_some hi
  obtain ⟨t', r, e2, ok, _, _, _, hr⟩ := remove_spec (hK.tc t (mem_of_get ht)) hn0 hn1 hint
  have below : ∀ y'' o'', y.below k n = some (y'', o'') → ∃ r, o'' = ⟨r, [], none⟩ ∧ y''.held = r.getD [] ++ y.held ∧
      y''.flight = y.flight ∧ y''.x.c.w = y.x.c.w ∧
      ((∃ got, r = some got ∧ 0 < got.length ∧ got.length ≤ n ∧ GotFrom y i n got) ∨
       (r = none ∧ y''.t = y.t ∧ ∃ pd, y''.x.c.pend = pd :: y.x.c.pend)) := by
    intro y'' o'' hb
    obtain ⟨x', r, e, hsp, hw, hr⟩ := CentralFreeList.remove_exact hk y.x hK.cfl n ⟨hn0, hn1⟩
    unfold World.below at hb
    rw [e] at hb
    cases hb
    refine ⟨r, rfl, rfl, rfl, hw, ?_⟩
    rcases hr with ⟨got, rfl, hl, hnd', e2, _⟩ | ⟨got, want, rfl, hpd, _⟩
    · refine Or.inl ⟨got, rfl, by omega, by omega, Or.inr (Or.inr ⟨hl, ?_⟩)⟩
      intro o ho hoh
      rw [List.append_assoc] at hnd'
      exact (List.nodup_append.1 hnd').2.2 o ho o (List.mem_append_left _ hoh) rfl
    · exact Or.inr ⟨rfl, rfl, _, hpd⟩
  rcases hr with ⟨rfl, -, _⟩ | ⟨objs, rfl, _, hlen, hpos, ho⟩
  · by_cases hi0 : i = 0
    · simp only [step, ht, Option.bind_some, e2] at e1 ⊢
      rw [if_pos hi0] at e1 ⊢
      obtain ⟨r, rfl, a, b, c, d⟩ := below y' o e1
      exact ⟨y', r, e1, a, b, hnd, c, d⟩
    · obtain ⟨t0, ht0⟩ := getElem_some (show 0 < y.t.length by omega)
      obtain ⟨t0', r, e3, ok0, _, _, _, hr0⟩ := remove_spec (hK.tc t0 (mem_of_get ht0)) hn0 hn1 hint0
      rcases hr0 with ⟨rfl, -, _⟩ | ⟨objs, rfl, _, hlen, hpos, ho⟩
      · simp only [step, ht, Option.bind_some, e2, hi0, if_false, ht0, e3] at e1 ⊢
        obtain ⟨r, rfl, a, b, c, d⟩ := below y' o e1
        exact ⟨y', r, e1, a, b, hnd, c, d⟩
      · simp only [step, ht, Option.bind_some, e2, hi0, if_false, ht0, e3] at e1 ⊢
        cases e1
        exact ⟨_, _, rfl, rfl, rfl, hnd, rfl, Or.inl ⟨objs, rfl, hpos, by omega,
          Or.inr (Or.inl ⟨hi0, t0, _, ht0, ho, hlen⟩)⟩⟩
  · simp only [step, ht, Option.bind_some, e2] at e1 ⊢
    cases e1
    exact ⟨_, _, rfl, rfl, rfl, hnd, rfl, Or.inl ⟨objs, rfl, hpos, by omega, Or.inl ⟨t, _, ht, ho, hlen⟩⟩⟩

/-- **C26.** What was just inserted comes out again: if the batch fitted, a `RemoveRange` of its size on the
same cache, with nothing in between, returns exactly that batch. -/
theorem insert_remove (t : TC) (h : t.used ≤ t.cap ∧ t.cap ≤ t.max ∧ t.low ≤ t.used) (batch : List Nat)
    (h0 : batch ≠ []) (h1 : batch.length ≤ 128) (hroom : t.used + batch.length ≤ t.cap) :
    ∃ t' t'', t.insert batch true = some (t', []) ∧ t'.remove batch.length true = some (t'', some batch) ∧
      t''.objs = t.objs := by
  obtain ⟨t', rest, e1, ok, er, eo, ec, em, _⟩ := insert_spec (t := t) ⟨h.1, h.2.1, h.2.2⟩ h0 h1 true
  have hpos : 0 < batch.length := List.length_pos_iff.2 h0
  have hmin : (if true then min batch.length (t.cap - t.used) else 0) = batch.length := by simp; omega
  have hmin' : (if true = true then min batch.length (t.cap - t.used) else 0) = batch.length := by simp; omega
  rw [hmin'] at er eo
  rw [List.drop_length] at er
  rw [List.take_length] at eo
  subst er
  obtain ⟨t'', r, e2, ok', _, _, _, hr⟩ := remove_spec ok hpos h1 true
  have hu : t'.used = t.used + batch.length := by
    rw [← objs_length, eo, List.length_append, objs_length]
  rcases hr with ⟨_, _, hz⟩ | ⟨objs, rfl, _, hl, _, ho⟩
  · have := hz rfl; omega
  · have hl' : objs.length = batch.length := by omega
    rw [eo] at ho
    have := List.append_inj' ho hl'.symm
    rw [← this.2] at e2
    exact ⟨t', t'', e1, e2, this.1.symm⟩

/-- **C26.** Batches on their way down arrive: a batch for the central free list is inserted there whole; a
shard's batch goes into the cache below it as far as it fits, the rest stays on its way. -/
theorem land_exact (hk : k.OK) (hB : B ≤ 128) (y : World) (h : Reach k B y) (j : Nat) (hint : Bool)
    (hp : Pre k y (.land j hint)) : ∃ y' freed f, step k B y (.land j hint) = some (y', ⟨none, freed, none⟩) ∧
      y.flight[j]? = some f ∧ y'.held = y.held ∧
      ((f.toCache = false ∧ y'.t = y.t ∧ (∀ o, o ∈ y'.x.held ↔ o ∈ y.x.held ∧ o ∉ f.objs) ∧
          CentralFreeList.step k y.x (.insert f.objs) = some (y'.x, ⟨none, freed⟩) ∧
          y'.flight = y.flight.eraseIdx j) ∨
       (f.toCache = true ∧ y'.x = y.x ∧ freed = [] ∧ ∃ t t' got, y.t[0]? = some t ∧ y'.t = y.t.set 0 t' ∧
          t'.objs = t.objs ++ f.objs.take got ∧ got = (if hint then min f.objs.length (t.cap - t.used) else 0) ∧
          ∀ a, y'.flying.count a + (f.objs.take got).count a = y.flying.count a)) := by
  have hK := h.K hk hB
  obtain ⟨f, hf⟩ := getElem_some hp
  obtain ⟨fne, flen, fpos, fcont⟩ := hK.fl f (mem_of_get hf)
  have hfly : ∀ a, ((y.flight.eraseIdx j).flatMap Flight.objs).count a + f.objs.count a = y.flying.count a :=
    fun a => count_eraseIdx Flight.objs a y.flight j f hf
  by_cases htc : f.toCache = true
  · obtain ⟨t, ht⟩ := getElem_some fpos
    obtain ⟨t', rest, e1, ok, er, eo, _⟩ := insert_spec (hK.tc t (mem_of_get ht)) fne flen hint
    refine ⟨_, [], f, by simp only [step, hf, Option.bind_some, htc, if_true, ht, e1, Option.map_some]; rfl, hf, ?_,
      Or.inr ⟨htc, ?_, rfl, t, t', _, ht, ?_, eo, rfl, ?_⟩⟩
    · rw [(send_x _ _ _ _).2.2.1]
    · rw [(send_x _ _ _ _).1]
    · rw [send_t]
    · intro a
      rw [(send_x _ _ _ _).2.2.2.1, List.count_append]
      have h2 := hfly a
      generalize hg : (if hint then min f.objs.length (t.cap - t.used) else 0) = got at er eo ⊢
      have h3 : f.objs.count a = (f.objs.take got).count a + (f.objs.drop got).count a := by
        rw [← List.count_append, List.take_append_drop]
      show rest.count a + ((y.flight.eraseIdx j).flatMap Flight.objs).count a + _ = _
      rw [er]; omega
  · have hin : ∀ o ∈ f.objs, o ∈ y.x.held := by
      intro o ho
      have h1 := hK.perm o
      have h2 := hfly o
      have : 0 < f.objs.count o := List.count_pos_iff.2 ho
      exact List.count_pos_iff.1 (by omega)
    have hfnd : f.objs.Nodup := by
      rw [List.nodup_iff_count]; intro b
      have := hK.counts hk b
      have := hfly b
      omega
    obtain ⟨x', freed, e1, hh, _⟩ := CentralFreeList.insert_exact hk y.x hK.cfl f.objs ⟨fne, flen, hfnd, hin⟩
    have es : step k B y (.land j hint) = some
        ({ y with x := x', flight := y.flight.eraseIdx j, conts := f.cont.toList ++ y.conts }, ⟨none, freed, none⟩) := by
      simp only [step, hf, Option.bind_some]
      rw [if_neg htc, e1]; rfl
    exact ⟨_, freed, f, es, hf, rfl, Or.inl ⟨by simpa using htc, rfl, hh, e1, rfl⟩⟩

/-- **C26.** A plunder's first section takes the newest `min(batch size, low-water mark)` objects of the
cache, and nothing else changes hands. -/
theorem plunder_exact (hk : k.OK) (hB : B ≤ 128) (y : World) (h : Reach k B y) (i : Nat) (hp : Pre k y (.plunder i)) :
    ∃ y' t t' buf, step k B y (.plunder i) = some (y', ⟨none, [], none⟩) ∧ y.t[i]? = some t ∧ y'.t = y.t.set i t' ∧
      t.objs = t'.objs ++ buf ∧ buf.length = min B t.low ∧ y'.flying = buf ++ y.flying ∧ y'.held = y.held ∧
      y'.x = y.x ∧ (0 < buf.length → ∃ f, y'.flight = f :: y.flight ∧ f.cont = some (i, t.low - buf.length)) := by
  obtain ⟨t, ht⟩ := getElem_some (show i < y.t.length from hp)
  obtain ⟨t', q, e1, ok, _, _, _, hq⟩ := plunder_spec (B := B) ((h.K hk hB).tc t (mem_of_get ht)) hB
  have es : step k B y (.plunder i) = some (y.plundered i (t', q), ⟨none, [], none⟩) := by
    simp only [step, ht, Option.bind_some, e1, Option.map_some]
  rcases hq with ⟨rfl, a, b⟩ | ⟨buf, rfl, a, c, b⟩
  · exact ⟨_, t, t', [], es, ht, rfl, by simp [a], by simp [b], rfl, rfl, rfl, by simp⟩
  · refine ⟨_, t, t', buf, es, ht, ?_, b, a, ?_, ?_, ?_, ?_⟩
    · exact send_t _ _ _ _
    · exact (send_x _ _ _ _).2.2.2.1
    · exact (send_x _ _ _ _).2.2.1
    · exact (send_x _ _ _ _).1
    · intro _
      have hne : buf ≠ [] := List.length_pos_iff.1 c
      refine ⟨⟨buf, decide (i ≠ 0), some (i, t.low - buf.length)⟩, ?_, rfl⟩
      show (World.send _ _ _ _).flight = _
      unfold World.send
      rw [if_neg hne]

/-- **C26.** The low-water mark is what it says: it follows the smallest `used` since the last section of a
plunder of this cache; a plunder section that ran sets it to `used`. -/
theorem low_water_exact (hk : k.OK) (hB : B ≤ 128) (y : World) (h : Reach k B y) (e : Ev) (hp : Pre k y e)
    (y' : World) (o : Out) (hs : step k B y e = some (y', o)) (i : Nat) (t t' : TC) (ht : y.t[i]? = some t)
    (ht' : y'.t[i]? = some t') :
    t'.low = min t.low t'.used ∨
      ((e = .plunder i ∨ ∃ j r, e = .plunderNext j ∧ y.conts[j]? = some (i, r)) ∧ t'.low = t'.used) := by
  have hK := h.K hk hB
  have hlow : ∀ u ∈ y.t, u.low = min u.low u.used := fun u hu => by have := (hK.tc u hu).low; omega
  -- replacing cache `j` by `u'`
  have hset : ∀ (j : Nat) (u u' : TC) (P : Prop), y.t[j]? = some u → y'.t = y.t.set j u' →
      (i = j → (u'.low = min u.low u'.used ∨ P)) → t'.low = min t.low t'.used ∨ P := by
    intro j u u' P hu hy' hP
    rw [hy', List.getElem?_set] at ht'
    by_cases hij : j = i
    · subst hij
      have hl : j < y.t.length := by
        rcases Nat.lt_or_ge j y.t.length with h' | h'
        · exact h'
        · rw [List.getElem?_eq_none h'] at ht; cases ht
      rw [if_pos rfl, if_pos hl] at ht'
      rw [hu] at ht
      cases ht; cases ht'
      exact hP rfl
    · rw [if_neg hij, ht] at ht'
      cases ht'
      exact Or.inl (hlow t (mem_of_get ht))
  have hsame : y'.t = y.t → t'.low = min t.low t'.used := by
    intro hy'
    rw [hy', ht] at ht'
    cases ht'
    exact hlow t (mem_of_get ht)
  cases e with
  | write w => simp only [step] at hs; obtain ⟨q, _, e2⟩ := Option.map_eq_some_iff.1 hs; cases e2; exact Or.inl (hsame rfl)
  | insert j batch hint =>
    obtain ⟨hi, hne, hlen, hnd, hsub⟩ := hp
    obtain ⟨u, hu⟩ := getElem_some hi
    obtain ⟨u', rest, e1, ok, er, eo, _, _, el⟩ := insert_spec (hK.tc u (mem_of_get hu)) hne hlen hint
    simp only [step, hu, Option.bind_some, e1, Option.map_some] at hs
    cases hs
    refine hset j u u' _ hu (send_t _ _ _ _) fun _ => Or.inl ?_
    have := (hK.tc u (mem_of_get hu)).low
    have h2 : u.used ≤ u'.used := by
      rw [← objs_length (t := u'), eo, List.length_append, objs_length]; omega
    omega
  | land j hint =>
    obtain ⟨f, hf⟩ := getElem_some hp
    obtain ⟨fne, flen, fpos, fcont⟩ := hK.fl f (mem_of_get hf)
    by_cases htc : f.toCache = true
    · obtain ⟨u, hu⟩ := getElem_some fpos
      obtain ⟨u', rest, e1, ok, er, eo, _, _, el⟩ := insert_spec (hK.tc u (mem_of_get hu)) fne flen hint
      simp only [step, hf, Option.bind_some, htc, if_true, hu, e1, Option.map_some] at hs
      cases hs
      refine hset 0 u u' _ hu (send_t _ _ _ _) fun _ => Or.inl ?_
      have := (hK.tc u (mem_of_get hu)).low
      have h2 : u.used ≤ u'.used := by
        rw [← objs_length (t := u'), eo, List.length_append, objs_length]; omega
      omega
    · obtain ⟨y2, _, f2, e1, e2, _, h3 | h3⟩ := land_exact hk hB y h j hint hp
      · rw [e1] at hs; cases hs; exact Or.inl (hsame h3.2.1)
      · rw [hf] at e2; cases e2; exact absurd h3.1 htc
  | remove j n hint hint0 =>
    obtain ⟨hi, hn0, hn1⟩ := hp
    obtain ⟨u, hu⟩ := getElem_some hi
    obtain ⟨u', r, e2, ok, _, _, el, hr⟩ := remove_spec (hK.tc u (mem_of_get hu)) hn0 hn1 hint
    obtain ⟨yb, ob, eb, _, hbt, _⟩ := below_K hk hK hn0 hn1
    rcases hr with ⟨rfl, -, _⟩ | ⟨objs, rfl, _, hlen, hpos, ho⟩
    · by_cases hi0 : j = 0
      · simp only [step, hu, Option.bind_some, e2] at hs
        rw [if_pos hi0, eb] at hs
        cases hs
        exact Or.inl (hsame hbt)
      · obtain ⟨t0, ht0⟩ := getElem_some (show 0 < y.t.length by omega)
        obtain ⟨t0', r, e3, ok0, _, _, el0, hr0⟩ := remove_spec (hK.tc t0 (mem_of_get ht0)) hn0 hn1 hint0
        rcases hr0 with ⟨rfl, -, _⟩ | ⟨objs, rfl, _, hlen, hpos, ho⟩
        · simp only [step, hu, Option.bind_some, e2, hi0, if_false, ht0, e3, eb] at hs
          cases hs
          exact Or.inl (hsame hbt)
        · simp only [step, hu, Option.bind_some, e2, hi0, if_false, ht0, e3] at hs
          cases hs
          exact hset 0 t0 t0' _ ht0 rfl fun _ => Or.inl el0
    · simp only [step, hu, Option.bind_some, e2] at hs
      cases hs
      exact hset j u u' _ hu rfl fun _ => Or.inl el
  | populate j span => simp only [step] at hs; obtain ⟨q, _, e2⟩ := Option.map_eq_some_iff.1 hs; cases e2; exact Or.inl (hsame rfl)
  | plunder j =>
    obtain ⟨u, hu⟩ := getElem_some (show j < y.t.length from hp)
    obtain ⟨u', q, e1, ok, _, _, el, hq⟩ := plunder_spec (B := B) (hK.tc u (mem_of_get hu)) hB
    simp only [step, hu, Option.bind_some, e1, Option.map_some] at hs
    cases hs
    have : (y.plundered j (u', q)).t = y.t.set j u' := by
      cases q with
      | none => rfl
      | some q => exact send_t _ _ _ _
    have h2 := hset j u u' ((Ev.plunder j = Ev.plunder i) ∧ u'.low = u'.used) hu this
      fun e => Or.inr ⟨by rw [e], el⟩
    rcases h2 with h2 | ⟨h2, _⟩
    · exact Or.inl h2
    · cases h2
      rw [this, List.getElem?_set, if_pos rfl] at ht'
      split at ht'
      · cases ht'; exact Or.inr ⟨Or.inl rfl, el⟩
      · cases ht'
  | plunderNext j =>
    obtain ⟨⟨i', r⟩, hc⟩ := getElem_some (show j < y.conts.length from hp)
    obtain ⟨u, hu⟩ := getElem_some (hK.ct _ (mem_of_get hc))
    obtain ⟨u', q, e1, ok, _, _, hq⟩ := turn_spec (B := B) (hK.tc u (mem_of_get hu)) hB r
    simp only [step, hc, hu, Option.bind_some, e1, Option.map_some] at hs
    cases hs
    have h3 : (World.plundered { y with conts := y.conts.eraseIdx j } i' (u', q)).t = y.t.set i' u' := by
      cases q with
      | none => rfl
      | some q => exact send_t _ _ _ _
    rcases hq with ⟨rfl, rfl, _⟩ | ⟨buf, rfl, _, _, _, el⟩
    · exact Or.inl ((hset i' u' u' False hu h3 fun _ => Or.inl (hlow u' (mem_of_get hu))).resolve_right id)
    · by_cases hii : i' = i
      · subst hii
        rw [h3, List.getElem?_set, if_pos rfl] at ht'
        split at ht'
        · cases ht'; exact Or.inr ⟨Or.inr ⟨j, r, rfl, hc⟩, el⟩
        · cases ht'
      · exact Or.inl ((hset i' u u' False hu h3 fun e => absurd e.symm hii).resolve_right id)
  | plunderStop j => cases hs; exact Or.inl (hsame rfl)
  | shrink j =>
    obtain ⟨u, hu⟩ := getElem_some (show j < y.t.length from hp)
    obtain ⟨u', b, objs, e1, ok, _, _, _, ho, hl, _, el⟩ := shrink_spec (B := B) (hK.tc u (mem_of_get hu)) hB
    simp only [step, hu, Option.bind_some, e1, Option.map_some] at hs
    cases hs
    exact hset j u u' _ hu (send_t _ _ _ _) fun _ => Or.inl el
  | grow j =>
    obtain ⟨u, hu⟩ := getElem_some (show j < y.t.length from hp)
    obtain ⟨u', b, e1, ok, _, _, _, ho, hu2, el⟩ := grow_spec (B := B) (hK.tc u (mem_of_get hu))
    simp only [step, hu, Option.bind_some, e1, Option.map_some] at hs
    cases hs
    refine hset j u u' _ hu rfl fun _ => Or.inl ?_
    have := (hK.tc u (mem_of_get hu)).low
    omega

/-- **C26.** `ShrinkCache` succeeds exactly when the capacity exceeds one batch; it takes away exactly one
batch of capacity and sends down exactly the objects that no longer fit, the newest ones. -/
theorem shrink_exact (hk : k.OK) (hB : B ≤ 128) (y : World) (h : Reach k B y) (i : Nat) (hp : Pre k y (.shrink i)) :
    ∃ y' t t' objs, step k B y (.shrink i) = some (y', ⟨none, [], some (decide (B < t.cap))⟩) ∧ y.t[i]? = some t ∧
      y'.t = y.t.set i t' ∧ t'.cap = (if B < t.cap then t.cap - B else t.cap) ∧ t'.max = t.max ∧
      t.objs = t'.objs ++ objs ∧ t'.used = min t.used t'.cap ∧ y'.flying = objs ++ y.flying ∧ y'.held = y.held := by
  obtain ⟨t, ht⟩ := getElem_some (show i < y.t.length from hp)
  obtain ⟨t', b, objs, e1, ok, em, eb, ec, ho, hl, eu, el⟩ := shrink_spec (B := B) ((h.K hk hB).tc t (mem_of_get ht)) hB
  subst eb
  have es : step k B y (.shrink i) = some (World.send { y with t := y.t.set i t' } (decide (i ≠ 0)) objs none,
      ⟨none, [], some (decide (B < t.cap))⟩) := by
    simp only [step, ht, Option.bind_some, e1, Option.map_some]
  exact ⟨_, t, t', objs, es, ht, send_t _ _ _ _, ec, em,
    ho, eu, (send_x _ _ _ _).2.2.2.1, (send_x _ _ _ _).2.2.1⟩

/-- **C26.** `IncreaseCacheCapacity` succeeds exactly when one more batch fits under the maximum, which is
what `CanIncreaseCapacity` says; it touches no object. -/
theorem grow_exact (hk : k.OK) (hB : B ≤ 128) (y : World) (h : Reach k B y) (i : Nat) (hp : Pre k y (.grow i)) :
    ∃ y' t t', step k B y (.grow i) = some (y', ⟨none, [], some (t.canGrow B)⟩) ∧ y.t[i]? = some t ∧
      y'.t = y.t.set i t' ∧ t.canGrow B = decide (t.cap + B ≤ t.max) ∧
      t'.cap = (if t.cap + B ≤ t.max then t.cap + B else t.cap) ∧ t'.max = t.max ∧ t'.objs = t.objs ∧
      y'.flying = y.flying ∧ y'.held = y.held := by
  obtain ⟨t, ht⟩ := getElem_some (show i < y.t.length from hp)
  obtain ⟨t', b, e1, ok, em, eb, ec, ho, eu, el⟩ := grow_spec (B := B) ((h.K hk hB).tc t (mem_of_get ht))
  have hcg : t.canGrow B = decide (t.cap + B ≤ t.max) := by
    unfold TC.canGrow
    simp only [decide_eq_decide]; omega
  rw [← hcg] at eb
  subst eb
  have es : step k B y (.grow i) = some ({ y with t := y.t.set i t' }, ⟨none, [], some (t.canGrow B)⟩) := by
    simp only [step, ht, Option.bind_some, e1, Option.map_some]
  exact ⟨_, t, t', es, ht, rfl, hcg, ec, em, ho, rfl, rfl⟩

/-- Every step other than a user's write leaves the central free list alone or is one step of it. -/
theorem step_x (hk : k.OK) (hB : B ≤ 128) {y : World} (h : Reach k B y) {e : Ev} (hp : Pre k y e)
    (he : ∀ w, e ≠ .write w) {y' : World} {o : Out} (hs : step k B y e = some (y', o)) :
    y'.x = y.x ∨ ∃ e' o', CentralFreeList.Pre k y.x e' ∧ (∀ w, e' ≠ .write w) ∧
      CentralFreeList.step k y.x e' = some (y'.x, o') := by
  have hK := h.K hk hB
  have hbelow : ∀ n, 0 < n → n ≤ kMaxObjectsToMove → y.below k n = some (y', o) →
      ∃ e' o', CentralFreeList.Pre k y.x e' ∧ (∀ w, e' ≠ .write w) ∧ CentralFreeList.step k y.x e' = some (y'.x, o') := by
    intro n h0 h1 hb
    unfold World.below at hb
    obtain ⟨⟨x', o'⟩, e1, e2⟩ := Option.map_eq_some_iff.1 hb
    cases e2
    exact ⟨.remove n, o', ⟨h0, h1⟩, (fun _ h => by cases h), e1⟩
  cases e with
  | write w => exact absurd rfl (he w)
  | insert j batch hint =>
    obtain ⟨y2, t, t', got, e1, _, _, _, _, _, _, ex⟩ := insert_exact hk hB y h j batch hint hp
    rw [e1] at hs; cases hs; exact Or.inl ex
  | land j hint =>
    obtain ⟨y2, _, f2, e1, e2, _, h3 | h3⟩ := land_exact hk hB y h j hint hp
    · rw [e1] at hs; cases hs
      obtain ⟨fne, flen, fpos, fcont⟩ := hK.fl f2 (mem_of_get e2)
      have hfly := fun a => count_eraseIdx Flight.objs a y.flight j f2 e2
      refine Or.inr ⟨.insert f2.objs, _, ⟨fne, flen, ?_, ?_⟩, (fun _ h => by cases h), h3.2.2.2.1⟩
      · rw [List.nodup_iff_count]; intro b
        have := hK.counts hk b
        have h4 := hfly b
        unfold World.flying at this
        omega
      · intro o ho
        have h1 := hK.perm o
        have h2 := hfly o
        unfold World.flying at h1
        have : 0 < f2.objs.count o := List.count_pos_iff.2 ho
        exact List.count_pos_iff.1 (by omega)
    · rw [e1] at hs; cases hs; exact Or.inl h3.2.1
  | remove j n hint hint0 =>
    obtain ⟨hi, hn0, hn1⟩ := hp
    obtain ⟨u, hu⟩ := getElem_some hi
    obtain ⟨u', r, e2, ok, _, _, el, hr⟩ := remove_spec (hK.tc u (mem_of_get hu)) hn0 hn1 hint
    rcases hr with ⟨rfl, -, _⟩ | ⟨objs, rfl, _, hlen, hpos, ho⟩
    · by_cases hi0 : j = 0
      · simp only [step, hu, Option.bind_some, e2] at hs
        rw [if_pos hi0] at hs
        exact Or.inr (hbelow n hn0 hn1 hs)
      · obtain ⟨t0, ht0⟩ := getElem_some (show 0 < y.t.length by omega)
        obtain ⟨t0', r, e3, ok0, _, _, el0, hr0⟩ := remove_spec (hK.tc t0 (mem_of_get ht0)) hn0 hn1 hint0
        rcases hr0 with ⟨rfl, -, _⟩ | ⟨objs, rfl, _, hlen, hpos, ho⟩
        · simp only [step, hu, Option.bind_some, e2, hi0, if_false, ht0, e3] at hs
          exact Or.inr (hbelow n hn0 hn1 hs)
        · simp only [step, hu, Option.bind_some, e2, hi0, if_false, ht0, e3] at hs
          cases hs; exact Or.inl rfl
    · simp only [step, hu, Option.bind_some, e2] at hs
      cases hs; exact Or.inl rfl
  | populate j span =>
    simp only [step] at hs
    obtain ⟨⟨x', o'⟩, e1, e2⟩ := Option.map_eq_some_iff.1 hs
    cases e2
    exact Or.inr ⟨.populate j span, o', hp, (fun _ h => by cases h), e1⟩
  | plunder j =>
    obtain ⟨y2, t, t', buf, e1, _, _, _, _, _, _, ex, _⟩ := plunder_exact hk hB y h j hp
    rw [e1] at hs; cases hs; exact Or.inl ex
  | plunderNext j =>
    obtain ⟨⟨i', r⟩, hc⟩ := getElem_some (show j < y.conts.length from hp)
    obtain ⟨u, hu⟩ := getElem_some (hK.ct _ (mem_of_get hc))
    obtain ⟨u', q, e1, ok, _, _, hq⟩ := turn_spec (B := B) (hK.tc u (mem_of_get hu)) hB r
    simp only [step, hc, hu, Option.bind_some, e1, Option.map_some] at hs
    cases hs
    left
    cases q with
    | none => rfl
    | some q => exact (send_x _ _ _ _).1
  | plunderStop j => cases hs; exact Or.inl rfl
  | shrink j =>
    obtain ⟨u, hu⟩ := getElem_some (show j < y.t.length from hp)
    obtain ⟨u', b, objs, e1, _⟩ := shrink_spec (B := B) (hK.tc u (mem_of_get hu)) hB
    simp only [step, hu, Option.bind_some, e1, Option.map_some] at hs
    cases hs; exact Or.inl (send_x _ _ _ _).1
  | grow j =>
    obtain ⟨u, hu⟩ := getElem_some (show j < y.t.length from hp)
    obtain ⟨u', b, e1, _⟩ := grow_spec (B := B) (hK.tc u (mem_of_get hu))
    simp only [step, hu, Option.bind_some, e1, Option.map_some] at hs
    cases hs; exact Or.inl rfl

/-- **C26.** Nothing the tier does changes the contents of an object that stays with its caller. -/
theorem contents_kept (hk : k.OK) (hB : B ≤ 128) (y : World) (h : Reach k B y) (e : Ev) (hp : Pre k y e)
    (he : ∀ w, e ≠ .write w) (y' : World) (out : Out) (hs : step k B y e = some (y', out)) (o : Nat)
    (ho : o ∈ y.held) (ho' : o ∈ y'.held) (a : Nat) (ha : o ≤ 2 * a ∧ 2 * a < o + k.size) :
    y'.x.c.w a = y.x.c.w a := by
  have hK := h.K hk hB
  obtain ⟨y2, o2, e2, hK'⟩ := step_K hk hB hK hp
  rw [hs] at e2; cases e2
  rcases step_x hk hB h hp he hs with hx | ⟨e', o', hpre, hne, hst⟩
  · rw [hx]
  · have h1 : o ∈ y.x.held := by
      have := hK.perm o
      have h2 : 0 < y.held.count o := List.count_pos_iff.2 ho
      exact List.count_pos_iff.1 (by omega)
    have h2 : o ∈ y'.x.held := by
      have := hK'.perm o
      have h2 : 0 < y'.held.count o := List.count_pos_iff.2 ho'
      exact List.count_pos_iff.1 (by omega)
    exact CentralFreeList.contents_kept hk y.x hK.cfl e' hpre hne y'.x o' hst o h1 h2 a ha

/-- **C26.** The capacities a cache starts with: whole batches, at least one and at most 64 (initially at
most 16), and not more than 1 MiB of objects unless a single batch is already more. -/
theorem capacity_needed (cls bytes n : Nat) (hc : cls ≠ 0) (hb : bytes ≠ 0) (hn : 0 < n) :
    ∃ cap max, capacityNeeded cls bytes n = some (cap, max) ∧ cap ≤ max ∧ n ≤ cap ∧ cap ≤ 16 * n ∧ max ≤ 64 * n ∧
      cap % n = 0 ∧ max % n = 0 ∧ (max * bytes ≤ 2 ^ 20 ∨ max = n) := by
  unfold capacityNeeded
  rw [if_neg (by omega), if_neg (by omega)]
  dsimp only
  generalize hq : 1024 * 1024 / (bytes * n) = q
  have hqn : q * n * bytes ≤ 2 ^ 20 := by
    have h1 : q * (bytes * n) ≤ 1024 * 1024 := by rw [← hq]; exact Nat.div_mul_le_self _ _
    rw [Nat.mul_comm bytes n, ← Nat.mul_assoc] at h1
    exact h1
  have hmods : ∀ a, a * n % n = 0 := fun a => Nat.mul_mod_left a n
  refine ⟨_, _, rfl, Nat.min_le_right _ _, by omega, Nat.min_le_left _ _, Nat.min_le_left _ _, ?_, ?_, ?_⟩
  · rcases Nat.le_total (16 * n) (min (64 * n) (max n (q * n))) with h | h
    · rw [Nat.min_eq_left h]; exact hmods 16
    · rw [Nat.min_eq_right h]
      rcases Nat.le_total (64 * n) (max n (q * n)) with h | h
      · rw [Nat.min_eq_left h]; exact hmods 64
      · rw [Nat.min_eq_right h]
        rcases Nat.le_total n (q * n) with h | h
        · rw [Nat.max_eq_right h]; exact hmods q
        · rw [Nat.max_eq_left h]; exact Nat.mod_self n
  · rcases Nat.le_total (64 * n) (max n (q * n)) with h | h
    · rw [Nat.min_eq_left h]; exact hmods 64
    · rw [Nat.min_eq_right h]
      rcases Nat.le_total n (q * n) with h | h
      · rw [Nat.max_eq_right h]; exact hmods q
      · rw [Nat.max_eq_left h]; exact Nat.mod_self n
  · rcases Nat.le_total n (q * n) with h | h
    · rw [Nat.max_eq_right h]
      left
      exact Nat.le_trans (Nat.mul_le_mul_right bytes (Nat.min_le_right _ _)) hqn
    · rw [Nat.max_eq_left h]
      right; omega

/-- **C26.** Resizing: the background thread's pass over the classes always ends; it takes one batch of
capacity each from some classes and gives one batch each to equally many other classes, at most `kMax`; all
others keep theirs.  No capacity reaches 0 or exceeds its maximum, and nobody gives to a class that missed
less. -/
theorem resize_exact (z : Sizes) (kMax : Nat) (misses : List MissInfo) (cap : Nat → Nat)
    (hnd : (misses.map MissInfo.cls).Nodup) :
    ∃ (cap' : Nat → Nat) (G S : List MissInfo), resize z kMax misses cap = some cap' ∧ (∀ m ∈ G ++ S, m ∈ misses) ∧
      (G.map MissInfo.cls ++ S.map MissInfo.cls).Nodup ∧ G.length = S.length ∧ G.length ≤ kMax ∧
      (∀ m ∈ G, cap' m.cls = cap m.cls + z.n m.cls ∧ cap' m.cls ≤ z.max m.cls ∧ 0 < m.misses) ∧
      (∀ m ∈ S, cap' m.cls + z.n m.cls = cap m.cls ∧ 0 < cap' m.cls) ∧
      (∀ c, c ∉ G.map MissInfo.cls ++ S.map MissInfo.cls → cap' c = cap c) ∧
      ∀ a ∈ G, ∀ b ∈ S, b.misses ≤ a.misses := by
  have hperm := sort_perm misses
  have hnd' : ((sortMisses misses).map MissInfo.cls).Nodup := (hperm.map MissInfo.cls).nodup_iff.2 hnd
  have hsort := sort_sorted misses
  generalize hms : sortMisses misses = ms at hperm hnd' hsort
  obtain ⟨g', s', cap', G, S, e, J⟩ := resizeLoop_spec z kMax ms cap hnd' ms.length 0 (ms.length - 1) cap [] []
    (by omega) (by omega) ⟨by omega, by simp, by simp, List.nodup_nil, List.nodup_nil, rfl, by simp, by simp, by simp,
      fun _ _ => rfl⟩
  have hres : resize z kMax misses cap = some cap' := by
    unfold resize
    rw [hms]
    dsimp only
    have e' : resizeLoop z kMax ms ms.length 0 (ms.length - 1) cap 0 0 = some (cap', G.length, S.length) := e
    rw [e']
    show giveBack z ms (S.length - G.length) cap' = some cap'
    rw [J.len, Nat.sub_self]; rfl
  -- positions to entries
  let at_ : Nat → MissInfo := fun i => ms[i]?.getD ⟨0, 0⟩
  have hat : ∀ i m, ms[i]? = some m → at_ i = m := fun i m h => by show ms[i]?.getD _ = m; rw [h]; rfl
  have hG : ∀ i ∈ G, ms[i]? = some (at_ i) := fun i hi => by
    obtain ⟨m, h1, _⟩ := J.grew i hi; rw [hat i m h1]; exact h1
  have hS : ∀ i ∈ S, ms[i]? = some (at_ i) := fun i hi => by
    obtain ⟨m, h1, _⟩ := J.shr i hi; rw [hat i m h1]; exact h1
  refine ⟨cap', G.map at_, S.map at_, hres, ?_, ?_, by simp [J.len], by simp [J.lim], ?_, ?_, ?_, ?_⟩
  · intro m hm
    rw [← List.map_append] at hm
    obtain ⟨i, hi, rfl⟩ := List.mem_map.1 hm
    rcases List.mem_append.1 hi with hi | hi
    · exact hperm.mem_iff.1 (List.mem_of_getElem? (hG i hi))
    · exact hperm.mem_iff.1 (List.mem_of_getElem? (hS i hi))
  · rw [List.map_map, List.map_map, ← List.map_append]
    have hGS : (G ++ S).Nodup := by
      rw [List.nodup_append]
      refine ⟨J.gnd, J.snd, ?_⟩
      intro a ha b hb e
      have := J.gpos a ha; have := J.spos b hb; have := J.gs; omega
    have hmem : ∀ i ∈ G ++ S, ms[i]? = some (at_ i) := fun i hi => by
      rcases List.mem_append.1 hi with hi | hi
      · exact hG i hi
      · exact hS i hi
    unfold List.Nodup
    rw [List.pairwise_map]
    refine List.Pairwise.imp_of_mem ?_ hGS
    intro a b ha hb hne e
    exact hne (cls_inj hnd' (hmem a ha) (hmem b hb) e)
  · intro m hm
    obtain ⟨i, hi, rfl⟩ := List.mem_map.1 hm
    obtain ⟨m, h1, h2, h3, h4⟩ := J.grew i hi
    rw [hat i m h1]; exact ⟨h3, h4, h2⟩
  · intro m hm
    obtain ⟨i, hi, rfl⟩ := List.mem_map.1 hm
    obtain ⟨m, h1, h2, h3⟩ := J.shr i hi
    rw [hat i m h1]; exact ⟨h2, h3⟩
  · intro c hc
    apply J.rest
    intro i m hi hm e
    apply hc
    rw [List.map_map, List.map_map, ← List.map_append]
    refine List.mem_map.2 ⟨i, hi, ?_⟩
    show (at_ i).cls = c
    rw [hat i m hm]; exact e
  · intro a ha b hb
    obtain ⟨i, hi, rfl⟩ := List.mem_map.1 ha
    obtain ⟨j, hj, rfl⟩ := List.mem_map.1 hb
    have hij : i < j := by have := J.gpos i hi; have := J.spos j hj; have := J.gs; omega
    obtain ⟨hi', e1⟩ := List.getElem?_eq_some_iff.1 (hG i hi)
    obtain ⟨hj', e2⟩ := List.getElem?_eq_some_iff.1 (hS j hj)
    have := List.pairwise_iff_getElem.1 hsort i j hi' hj' hij
    rw [e1, e2] at this; exact this

/-- What `ResizeCaches` is told by `ShrinkCache` and `IncreaseCacheCapacity`, and what they do to the
capacity, depends on nothing but capacity, maximum and batch size, as `shrinkScan` and `growScan` assume. -/
theorem shrink_cap (t : TC) (hB : B ≤ 128) (h : t.used ≤ t.cap ∧ t.cap ≤ t.max ∧ t.low ≤ t.used) :
    (∃ t' objs, t.shrink B = some (t', decide (B < t.cap), objs) ∧ t'.cap = (if B < t.cap then t.cap - B else t.cap)) ∧
    ∃ t', t.grow B = some (t', decide (t.cap + B ≤ t.max)) ∧ t'.cap = (if t.cap + B ≤ t.max then t.cap + B else t.cap) := by
  obtain ⟨t', b, objs, e1, ok, em, eb, ec, _⟩ := shrink_spec (B := B) (t := t) ⟨h.1, h.2.1, h.2.2⟩ hB
  obtain ⟨t2, b2, e2, ok2, em2, eb2, ec2, _⟩ := grow_spec (B := B) (t := t) ⟨h.1, h.2.1, h.2.2⟩
  subst eb eb2
  exact ⟨⟨t', objs, e1, ec⟩, t2, e2, ec2⟩

/-- `HasSpareCapacity` says exactly whether `ShrinkCache` would evict nothing, when it may shrink at all. -/
theorem hasSpare_exact (t : TC) (hB : B ≤ 128) (h : t.used ≤ t.cap ∧ t.cap ≤ t.max ∧ t.low ≤ t.used)
    (hc : B < t.cap) : ∃ t' objs, t.shrink B = some (t', true, objs) ∧ (t.hasSpare B = true ↔ objs = []) := by
  obtain ⟨t', b, objs, e1, ok, em, eb, ec, ho, hl, eu, _⟩ := shrink_spec (B := B) (t := t) ⟨h.1, h.2.1, h.2.2⟩ hB
  rw [if_pos hc] at ec
  have hlen : t.used = t'.used + objs.length := by
    rw [← objs_length (t := t), ho, List.length_append, objs_length]
  refine ⟨t', objs, by rw [e1, eb, decide_eq_true hc], ?_⟩
  unfold TC.hasSpare
  rw [decide_eq_true_iff, ← List.length_eq_zero_iff]
  have := h.1
  omega

/-- The cache for large classes holds at most 12 MiB per class. -/
theorem large_capacity (use : Bool) (bytes : Nat) (hb : bytes ≠ 0) :
    ∃ c, largeCapacity use bytes = some (c, c) ∧ c * bytes ≤ 12 * 2 ^ 20 := by
  unfold largeCapacity
  cases use
  · exact ⟨0, rfl, by omega⟩
  · exact ⟨_, by rw [if_pos rfl, if_neg hb], Nat.div_mul_le_self _ _⟩

/-- Capacity counted in bytes is not conserved: a batch of a small class is traded for a batch of a large
one.  Here 16 batches of 32 objects of 8 bytes against 16 of 2 objects of 262144 bytes. -/
theorem resize_bytes_grow : ∃ (z : Sizes) (misses : List MissInfo) (cap cap' : Nat → Nat),
    resize z 1 misses cap = some cap' ∧ z.n = (fun c => if c = 1 then 32 else 2) ∧
    cap' 1 * 8 + cap' 2 * 262144 > cap 1 * 8 + cap 2 * 262144 := by
  refine ⟨⟨fun c => if c = 1 then 32 else 2, fun c => if c = 1 then 2048 else 4⟩, [⟨1, 0⟩, ⟨2, 5⟩],
    fun c => if c = 1 then 512 else 2, _, rfl, rfl, by decide⟩

/-! ### The hypotheses are met -/

def preB (k : Geo) (y : World) : Ev → Bool
  | .write _ => false
  | .insert i b _ => decide (i < y.t.length ∧ b ≠ [] ∧ b.length ≤ kMaxObjectsToMove ∧ b.Nodup ∧ ∀ o ∈ b, o ∈ y.held)
  | .land j _ => decide (j < y.flight.length)
  | .remove i n _ _ => decide (i < y.t.length ∧ 0 < n ∧ n ≤ kMaxObjectsToMove)
  | .populate j span => CentralFreeList.preB k y.x (.populate j span)
  | .plunder i => decide (i < y.t.length)
  | .plunderNext j => decide (j < y.conts.length)
  | .plunderStop j => decide (j < y.conts.length)
  | .shrink i => decide (i < y.t.length)
  | .grow i => decide (i < y.t.length)

theorem preB_ok {y : World} {e : Ev} (h : preB k y e = true) : Pre k y e := by
  cases e with
  | write w => simp [preB] at h
  | insert i b _ => simpa [preB, Pre] using h
  | land j _ => simpa [preB, Pre] using h
  | remove i n _ _ => simpa [preB, Pre] using h
  | populate j span => exact CentralFreeList.preB_ok (e := .populate j span) h
  | plunder i => simpa [preB, Pre] using h
  | plunderNext j => simpa [preB, Pre] using h
  | plunderStop j => simpa [preB, Pre] using h
  | shrink i => simpa [preB, Pre] using h
  | grow i => simpa [preB, Pre] using h

def runAll (k : Geo) (B : Nat) : World → List Ev → Option (World × List Out)
  | y, [] => some (y, [])
  | y, e :: es =>
    if preB k y e then
      (step k B y e).bind fun (y', o) => (runAll k B y' es).map fun (z, os) => (z, o :: os)
    else none

theorem runAll_reach : ∀ (es : List Ev) (x y : World) (os : List Out), Reach k B x → runAll k B x es = some (y, os) →
    Reach k B y
  | [], x, y, os, h, e => by cases e; exact h
  | e :: es, x, y, os, h, he => by
    unfold runAll at he
    split at he
    · next hp =>
      obtain ⟨⟨x', o⟩, h1, h2⟩ := Option.bind_eq_some_iff.1 he
      obtain ⟨⟨y', os'⟩, h3, h4⟩ := Option.map_eq_some_iff.1 h2
      cases h4
      exact runAll_reach es x' y os' (Reach.step e h (preB_ok hp) h1) h3
    · cases he

/-- Batches of 2; the transfer cache with room for 4 (at most 8) and one shard with room for 2. -/
def start : World :=
  ⟨⟨CentralFreeList.init CentralFreeList.w0, [], []⟩, [TC.new 4 8 (fun _ => 99), TC.new 2 2 (fun _ => 99)], [], [], []⟩

theorem start_reach : Reach Span.gBits 2 start := by
  refine Reach.init _ _ ?_
  intro c hc
  simp only [List.mem_cons, List.not_mem_nil, or_false] at hc
  rcases hc with rfl | rfl
  · exact ⟨4, 8, _, rfl, by decide⟩
  · exact ⟨2, 2, _, rfl, by decide⟩

def obj (i : Nat) : Nat := 819200 + 4480 * i

/-- Five objects are fetched through the shard; three go back into it (one falls through into the cache
below); two more go to the cache; a fetch finds them; plunder, shrink and landing of what is on its way. -/
def story : List Ev :=
  [.remove 1 5 true true, .populate 0 (some 100), .insert 1 [obj 0, obj 1, obj 2] true, .land 0 true,
   .insert 0 [obj 3, obj 4] true, .remove 1 1 false true, .shrink 0, .plunder 0, .plunder 0, .land 0 true,
   .plunderNext 0, .land 0 true]

def view (r : Option (World × List Out)) : Option (List Nat × List Nat × List Nat × List Nat × Nat) :=
  r.map fun (y, _) => (y.held, y.cached, y.flying, y.x.held, y.conts.length)

example : view (runAll Span.gBits 2 start (story.take 7)) =
    some ([obj 4], [obj 2, obj 3, obj 0, obj 1], [], [obj 0, obj 1, obj 2, obj 3, obj 4], 0) := by decide +kernel

example : view (runAll Span.gBits 2 start (story.take 9)) =
    some ([obj 4], [obj 0, obj 1], [obj 2, obj 3], [obj 0, obj 1, obj 2, obj 3, obj 4], 0) := by decide +kernel

example : view (runAll Span.gBits 2 start (story.take 11)) =
    some ([obj 4], [obj 0, obj 1], [], [obj 0, obj 1, obj 4], 0) := by decide +kernel

theorem mid_some : (runAll Span.gBits 2 start (story.take 9)).isSome = true := by decide +kernel
def mid : World := ((runAll Span.gBits 2 start (story.take 9)).get mid_some).1

/-- A state as in the theorems: objects with callers, in a cache, on their way, a plunder to be continued. -/
example : Reach Span.gBits 2 mid ∧ mid.held = [obj 4] ∧ mid.cached = [obj 0, obj 1] ∧ mid.flying = [obj 2, obj 3] ∧
    Pre Span.gBits mid (.insert 1 [obj 4] true) ∧ Pre Span.gBits mid (.land 0 true) ∧
    Pre Span.gBits mid (.remove 1 3 true true) ∧ Pre Span.gBits mid (.shrink 0) ∧ Pre Span.gBits mid (.plunder 0) :=
  ⟨runAll_reach _ _ _ _ start_reach (Option.some_get mid_some).symm, by decide +kernel, by decide +kernel,
    by decide +kernel, preB_ok (by decide +kernel), preB_ok (by decide +kernel), preB_ok (by decide +kernel),
    preB_ok (by decide +kernel), preB_ok (by decide +kernel)⟩

/-- A resize of five classes: class 2 missed most and takes from class 4, which missed least. -/
example : (resize ⟨fun c => c + 2, fun _ => 100⟩ 2 [⟨0, 3⟩, ⟨1, 0⟩, ⟨2, 9⟩, ⟨3, 1⟩, ⟨4, 0⟩] (fun _ => 50)).map
    (fun f => (List.range 5).map f) = some [52, 47, 54, 50, 44] := by decide +kernel

end Verif.TransferCache
