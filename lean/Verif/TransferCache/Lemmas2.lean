import Verif.TransferCache.Lemmas
import Verif.CentralFreeList.Props
/-! The middle tier: every step is defined and every object stays in exactly one place. -/
namespace Verif.TransferCache
open Verif.Span (Geo Mem IsObj InObj)

variable {k : Geo} {B : Nat}

theorem count_set {α : Type} (g : α → List Nat) (a : Nat) : ∀ (L : List α) (i : Nat) (t t' : α), L[i]? = some t →
    ((L.set i t').flatMap g).count a + (g t).count a = (L.flatMap g).count a + (g t').count a
  | [], i, t, t', h => by simp at h
  | b :: L, 0, t, t', h => by
    simp at h; subst h
    simp only [List.set_cons_zero, List.flatMap_cons, List.count_append]; omega
  | b :: L, i + 1, t, t', h => by
    have := count_set g a L i t t' (by simpa using h)
    simp only [List.set_cons_succ, List.flatMap_cons, List.count_append]; omega

theorem count_eraseIdx {α : Type} (g : α → List Nat) (a : Nat) : ∀ (L : List α) (i : Nat) (t : α), L[i]? = some t →
    ((L.eraseIdx i).flatMap g).count a + (g t).count a = (L.flatMap g).count a
  | [], i, t, h => by simp at h
  | b :: L, 0, t, h => by
    simp at h; subst h
    simp only [List.eraseIdx_cons_zero, List.flatMap_cons, List.count_append]; omega
  | b :: L, i + 1, t, h => by
    have := count_eraseIdx g a L i t (by simpa using h)
    simp only [List.eraseIdx_cons_succ, List.flatMap_cons, List.count_append]; omega

/-- The invariant. -/
structure K (k : Geo) (y : World) : Prop where
  cfl : CentralFreeList.Reach k y.x
  perm : ∀ a, y.held.count a + y.cached.count a + y.flying.count a = y.x.held.count a
  tc : ∀ t ∈ y.t, t.OK
  fl : ∀ f ∈ y.flight, f.objs ≠ [] ∧ f.objs.length ≤ kMaxObjectsToMove ∧ 0 < y.t.length ∧
    ∀ c, f.cont = some c → c.1 < y.t.length
  ct : ∀ c ∈ y.conts, c.1 < y.t.length

theorem K.nodup (hk : k.OK) {y : World} (h : K k y) : y.x.held.Nodup :=
  (List.nodup_append.1 (CentralFreeList.objects_disjoint hk y.x h.cfl).1).1

theorem count_le_one {l : List Nat} (h : l.Nodup) (a : Nat) : l.count a ≤ 1 := List.nodup_iff_count.1 h a

theorem K.counts (hk : k.OK) {y : World} (h : K k y) (a : Nat) :
    y.held.count a + y.cached.count a + y.flying.count a ≤ 1 := by
  rw [h.perm a]; exact count_le_one (h.nodup hk) a

/-- Removing a sublist of distinct held objects. -/
theorem count_filter_out {L b : List Nat} (hL : L.Nodup) (hb : b.Nodup) (hs : ∀ o ∈ b, o ∈ L) (a : Nat) :
    (L.filter fun o => decide (o ∉ b)).count a + b.count a = L.count a := by
  have := (List.perm_iff_count.1 (filter_out_perm hL hb hs)) a
  rw [List.count_append] at this; omega

theorem mem_set_of {α : Type} {L : List α} {i : Nat} {a b : α} (h : a ∈ L.set i b) : a ∈ L ∨ a = b :=
  List.mem_or_eq_of_mem_set h

/-- Facts about `send`. -/
theorem send_x (y : World) (tc : Bool) (r : List Nat) (c : Option (Nat × Nat)) : (y.send tc r c).x = y.x ∧
    (y.send tc r c).t = y.t ∧ (y.send tc r c).held = y.held ∧ (y.send tc r c).flying = r ++ y.flying ∧
    (∀ f ∈ (y.send tc r c).flight, f ∈ y.flight ∨ (f = ⟨r, tc, c⟩ ∧ r ≠ [])) ∧
    (∀ d ∈ (y.send tc r c).conts, d ∈ y.conts ∨ (c = some d ∧ r = [])) := by
  unfold World.send
  by_cases hr : r = []
  · rw [if_pos hr]
    refine ⟨rfl, rfl, rfl, by simp [hr, World.flying], fun f hf => Or.inl hf, ?_⟩
    intro d hd
    rcases List.mem_append.1 hd with h | h
    · cases c with
      | none => simp at h
      | some c => simp at h; subst h; exact Or.inr ⟨rfl, hr⟩
    · exact Or.inl h
  · rw [if_neg hr]
    refine ⟨rfl, rfl, rfl, rfl, ?_, fun d hd => Or.inl hd⟩
    intro f hf
    rcases List.mem_cons.1 hf with h | h
    · exact Or.inr ⟨h, hr⟩
    · exact Or.inl h

/-- `send` keeps the invariant. -/
theorem K.send {y y0 : World} (tc : Bool) (r : List Nat) (c : Option (Nat × Nat)) (hlen : r.length ≤ kMaxObjectsToMove)
    (hpos : 0 < y.t.length) (hc : ∀ d, c = some d → d.1 < y.t.length)
    (hcfl : CentralFreeList.Reach k y.x)
    (hperm : ∀ a, y.held.count a + y.cached.count a + y.flying.count a + r.count a = y.x.held.count a)
    (htc : ∀ t ∈ y.t, t.OK)
    (hfl : ∀ f ∈ y.flight, f ∈ y0.flight) (hct : ∀ c ∈ y.conts, c ∈ y0.conts) (h0 : K k y0)
    (hl : y.t.length = y0.t.length) :
    K k (y.send tc r c) := by
  obtain ⟨e1, e2, e3, e4, e5, e6⟩ := send_x y tc r c
  refine ⟨by rw [e1]; exact hcfl, ?_, by rw [e2]; exact htc, ?_, ?_⟩
  · intro a
    have hca : (y.send tc r c).cached = y.cached := by unfold World.cached; rw [e2]
    rw [e1, e3, e4, hca, List.count_append]
    have := hperm a
    omega
  · intro f hf
    rw [e2]
    rcases e5 f hf with h | ⟨h, hr⟩
    · have := h0.fl f (hfl f h)
      rwa [← hl] at this
    · subst h; exact ⟨hr, hlen, hpos, hc⟩
  · intro d hd
    rw [e2]
    rcases e6 d hd with h | ⟨h, _⟩
    · have := h0.ct d (hct d h)
      rwa [← hl] at this
    · exact hc d h

theorem cached_set {y : World} {i : Nat} {t t' : TC} (ht : y.t[i]? = some t) (a : Nat) :
    ((y.t.set i t').flatMap TC.objs).count a + t.objs.count a = y.cached.count a + t'.objs.count a :=
  count_set TC.objs a y.t i t t' ht

theorem mem_of_get {α : Type} {L : List α} {i : Nat} {t : α} (h : L[i]? = some t) : t ∈ L := List.mem_of_getElem? h

theorem ok_set {y : World} (h : ∀ t ∈ y.t, t.OK) {i : Nat} {t' : TC} (h' : t'.OK) : ∀ t ∈ y.t.set i t', t.OK := by
  intro t ht
  rcases mem_set_of ht with h1 | h1
  · exact h t h1
  · rw [h1]; exact h'

theorem mem_eraseIdx_of {α : Type} {L : List α} {i : Nat} {a : α} (h : a ∈ L.eraseIdx i) : a ∈ L :=
  (List.eraseIdx_sublist L i).subset h

/-- A plunder section keeps the invariant. -/
theorem K.plundered {y y0 : World} {i : Nat} {t t' : TC} {q : Option (List Nat × Nat)} (h0 : K k y0)
    (hx : y.x = y0.x) (ht0 : y.t = y0.t) (hh : y.held = y0.held) (hf : y.flight = y0.flight)
    (hct : ∀ c ∈ y.conts, c ∈ y0.conts) (ht : y.t[i]? = some t) (hok : t'.OK)
    (hq : (q = none ∧ t'.objs = t.objs) ∨ ∃ buf r, q = some (buf, r) ∧ buf.length ≤ kMaxObjectsToMove ∧
      t.objs = t'.objs ++ buf) : K k (y.plundered i (t', q)) := by
  have hil : i < y.t.length := by
    rcases Nat.lt_or_ge i y.t.length with h | h
    · exact h
    · rw [List.getElem?_eq_none h] at ht; cases ht
  have hset : ∀ a, ((y.t.set i t').flatMap TC.objs).count a + t.objs.count a = y0.cached.count a + t'.objs.count a := by
    intro a
    have := cached_set (y := y) (t' := t') ht a
    unfold World.cached at this ⊢
    rwa [ht0] at this ⊢
  have hfly : y.flying = y0.flying := by unfold World.flying; rw [hf]
  rcases hq with ⟨rfl, ho⟩ | ⟨buf, r, rfl, hl, ho⟩
  · show K k { y with t := y.t.set i t' }
    refine ⟨hx ▸ h0.cfl, ?_, ok_set (by rw [ht0]; exact h0.tc) hok, ?_, ?_⟩
    · intro a
      have h1 := hset a
      rw [ho] at h1
      have h2 := h0.perm a
      show y.held.count a + ((y.t.set i t').flatMap TC.objs).count a + y.flying.count a = y.x.held.count a
      rw [hh, hfly, hx]; omega
    · intro f hf'
      have := h0.fl f (hf ▸ hf')
      simpa [ht0] using this
    · intro c hc
      have := h0.ct c (hct c hc)
      simpa [ht0] using this
  · show K k ({ y with t := y.t.set i t' }.send (decide (i ≠ 0)) buf (some (i, r)))
    refine K.send (y0 := y0) _ _ _ hl (by simp; omega) ?_ (hx ▸ h0.cfl) ?_ (ok_set (by rw [ht0]; exact h0.tc) hok)
      (fun f hf' => hf ▸ hf') hct h0 (by simp [ht0])
    · rintro d e; cases e; simpa using hil
    · intro a
      have h1 := hset a
      rw [ho, List.count_append] at h1
      have h2 := h0.perm a
      show y.held.count a + ((y.t.set i t').flatMap TC.objs).count a + y.flying.count a + buf.count a = y.x.held.count a
      rw [hh, hfly, hx]; omega

/-- What a fall through to the central free list gives. -/
theorem below_K (hk : k.OK) {y : World} (h : K k y) {n : Nat} (h0 : 0 < n) (h1 : n ≤ kMaxObjectsToMove) :
    ∃ y' o, y.below k n = some (y', o) ∧ K k y' ∧ y'.t = y.t ∧ y'.flight = y.flight ∧ y'.conts = y.conts ∧
      o.freed = [] ∧ y'.held = o.got.getD [] ++ y.held ∧ (∀ g, o.got = some g → g.length = n) ∧ y'.x.c.w = y.x.c.w := by
  obtain ⟨x', r, e, hsp, hw, hr⟩ := CentralFreeList.remove_exact hk y.x h.cfl n ⟨h0, h1⟩
  unfold World.below
  rw [e]
  have hreach := CentralFreeList.Reach.step _ h.cfl (show CentralFreeList.Pre k y.x (.remove n) from ⟨h0, h1⟩) e
  refine ⟨_, _, rfl, ⟨hreach, ?_, h.tc, h.fl, h.ct⟩, rfl, rfl, rfl, rfl, rfl, ?_, hw⟩
  · intro a
    have := h.perm a
    show (r.getD [] ++ y.held).count a + y.cached.count a + y.flying.count a = x'.held.count a
    rcases hr with ⟨got, rfl, _, _, e2, _⟩ | ⟨got, want, rfl, _, _, _, _, e2, _⟩
    · rw [e2]; simp only [Option.getD_some, List.count_append]; omega
    · rw [e2]; simp only [Option.getD_none, List.nil_append]; omega
  · intro g hg
    rcases hr with ⟨got, rfl, hl, _⟩ | ⟨got, want, rfl, _⟩
    · cases hg; exact hl
    · cases hg

/-- Taking objects from cache `i`. -/
theorem K.take {y : World} (h : K k y) {i : Nat} {t t' : TC} {objs : List Nat} (ht : y.t[i]? = some t) (hok : t'.OK)
    (ho : t.objs = t'.objs ++ objs) : K k { y with t := y.t.set i t', held := objs ++ y.held } := by
  refine ⟨h.cfl, ?_, ok_set h.tc hok, ?_, ?_⟩
  · intro a
    have h1 := cached_set (y := y) (t' := t') ht a
    rw [ho, List.count_append] at h1
    have h2 := h.perm a
    show (objs ++ y.held).count a + ((y.t.set i t').flatMap TC.objs).count a + y.flying.count a = y.x.held.count a
    rw [List.count_append]; omega
  · intro f hf
    have := h.fl f hf
    simpa using this
  · intro c hc
    have := h.ct c hc
    simpa using this

theorem getElem_some {α : Type} {L : List α} {i : Nat} (h : i < L.length) : ∃ t, L[i]? = some t :=
  ⟨L[i], List.getElem?_eq_getElem h⟩

theorem step_K (hk : k.OK) (hB : B ≤ kMaxObjectsToMove) {y : World} (h : K k y) {e : Ev} (hp : Pre k y e) :
    ∃ y' o, step k B y e = some (y', o) ∧ K k y' := by
  cases e with
  | write w =>
    have hpre : CentralFreeList.Pre k y.x (.write w) := by
      intro p hp' o ho hn
      refine hp p hp' o ho ?_
      intro hh
      apply hn
      have h1 := h.perm o
      have : 0 < y.held.count o := List.count_pos_iff.2 hh
      exact List.count_pos_iff.1 (by omega)
    refine ⟨_, _, rfl, ?_⟩
    exact ⟨CentralFreeList.Reach.step _ h.cfl hpre rfl, h.perm, h.tc, h.fl, h.ct⟩
  | insert i batch hint =>
    obtain ⟨hi, hne, hlen, hnd, hsub⟩ := hp
    obtain ⟨t, ht⟩ := getElem_some hi
    obtain ⟨t', rest, e1, ok, er, eo, _⟩ := insert_spec (h.tc t (mem_of_get ht)) hne hlen hint
    refine ⟨_, _, by simp only [step, ht, Option.bind_some, e1, Option.map_some]; rfl, ?_⟩
    generalize hg : (if hint then min batch.length (t.cap - t.used) else 0) = got at er eo
    refine K.send (y0 := y) _ _ _ (by rw [er, List.length_drop]; omega) (by simp; omega) (by simp) h.cfl ?_
      (ok_set h.tc ok) (fun f hf => hf) (fun c hc => hc) h (by simp)
    intro a
    have h1 := cached_set (y := y) (t' := t') ht a
    rw [eo, List.count_append] at h1
    have hnh : y.held.Nodup := by
      rw [List.nodup_iff_count]; intro b
      have := h.counts hk b; omega
    have h2 := count_filter_out hnh hnd hsub a
    have h3 : batch.count a = (batch.take got).count a + (batch.drop got).count a := by
      rw [← List.count_append, List.take_append_drop]
    have h4 := h.perm a
    show (y.held.filter fun o => decide (o ∉ batch)).count a + ((y.t.set i t').flatMap TC.objs).count a +
      y.flying.count a + rest.count a = y.x.held.count a
    rw [er]; omega
  | land j hint =>
    obtain ⟨f, hf⟩ := getElem_some hp
    obtain ⟨fne, flen, fpos, fcont⟩ := h.fl f (mem_of_get hf)
    have hfly : ∀ a, ((y.flight.eraseIdx j).flatMap Flight.objs).count a + f.objs.count a = y.flying.count a :=
      fun a => count_eraseIdx Flight.objs a y.flight j f hf
    by_cases htc : f.toCache = true
    · obtain ⟨t, ht⟩ := getElem_some fpos
      obtain ⟨t', rest, e1, ok, er, eo, _⟩ := insert_spec (h.tc t (mem_of_get ht)) fne flen hint
      refine ⟨_, _, by simp only [step, hf, Option.bind_some, htc, if_true, ht, e1, Option.map_some]; rfl, ?_⟩
      generalize hg : (if hint then min f.objs.length (t.cap - t.used) else 0) = got at er eo
      refine K.send (y0 := y) _ _ _ (by rw [er, List.length_drop]; omega) (by simp; omega) (by simpa using fcont)
        h.cfl ?_ (ok_set h.tc ok) (fun f hf => mem_eraseIdx_of hf) (fun c hc => hc) h (by simp)
      intro a
      have h1 := cached_set (y := y) (t' := t') ht a
      rw [eo, List.count_append] at h1
      have h2 := hfly a
      have h3 : f.objs.count a = (f.objs.take got).count a + (f.objs.drop got).count a := by
        rw [← List.count_append, List.take_append_drop]
      have h4 := h.perm a
      show y.held.count a + ((y.t.set 0 t').flatMap TC.objs).count a +
        ((y.flight.eraseIdx j).flatMap Flight.objs).count a + rest.count a = y.x.held.count a
      rw [er]; omega
    · have hin : ∀ o ∈ f.objs, o ∈ y.x.held := by
        intro o ho
        have h1 := h.perm o
        have h2 := hfly o
        have : 0 < f.objs.count o := List.count_pos_iff.2 ho
        exact List.count_pos_iff.1 (by omega)
      have hfnd : f.objs.Nodup := by
        rw [List.nodup_iff_count]; intro b
        have := h.counts hk b
        have := hfly b
        omega
      have hpre : CentralFreeList.Pre k y.x (.insert f.objs) := ⟨fne, flen, hfnd, hin⟩
      obtain ⟨x', freed, e1, _⟩ := CentralFreeList.insert_exact hk y.x h.cfl f.objs hpre
      have hxh : x'.held = y.x.held.filter fun o => decide (o ∉ f.objs) := by
        unfold CentralFreeList.step at e1
        obtain ⟨⟨c, fr⟩, _, h2⟩ := Option.map_eq_some_iff.1 e1
        cases h2; rfl
      refine ⟨_, _, by simp only [step, hf, Option.bind_some, htc, e1, Option.map_some]; rfl, ?_⟩
      refine ⟨CentralFreeList.Reach.step _ h.cfl hpre e1, ?_, h.tc, fun f hf => h.fl f (mem_eraseIdx_of hf), ?_⟩
      · intro a
        have h1 := h.perm a
        have h2 := hfly a
        have h3 := count_filter_out (h.nodup hk) hfnd hin a
        show y.held.count a + y.cached.count a + ((y.flight.eraseIdx j).flatMap Flight.objs).count a = x'.held.count a
        rw [hxh]; omega
      · intro c hc
        rcases List.mem_append.1 hc with h1 | h1
        · exact fcont c (by simpa using h1)
        · exact h.ct c h1
  | remove i n hint hint0 =>
    obtain ⟨hi, hn0, hn1⟩ := hp
    obtain ⟨t, ht⟩ := getElem_some hi
    obtain ⟨t', r, e1, ok, _, _, _, hr⟩ := remove_spec (h.tc t (mem_of_get ht)) hn0 hn1 hint
    rcases hr with ⟨rfl, -, _⟩ | ⟨objs, rfl, _, _, _, ho⟩
    · by_cases hi0 : i = 0
      · obtain ⟨y', o, e2, hK, _⟩ := below_K hk h hn0 hn1
        exact ⟨y', o, by simp only [step, ht, Option.bind_some, e1]; rw [if_pos hi0]; exact e2, hK⟩
      · obtain ⟨t0, ht0⟩ := getElem_some (show 0 < y.t.length by omega)
        obtain ⟨t0', r, e3, ok0, _, _, _, hr0⟩ := remove_spec (h.tc t0 (mem_of_get ht0)) hn0 hn1 hint0
        rcases hr0 with ⟨rfl, -, _⟩ | ⟨objs, rfl, _, _, _, ho⟩
        · obtain ⟨y', o, e2, hK, _⟩ := below_K hk h hn0 hn1
          exact ⟨y', o, by simp only [step, ht, Option.bind_some, e1, hi0, if_false, ht0, e3, e2], hK⟩
        · exact ⟨_, _, by simp only [step, ht, Option.bind_some, e1, hi0, if_false, ht0, e3]; rfl,
            h.take ht0 ok0 ho⟩
    · exact ⟨_, _, by simp only [step, ht, Option.bind_some, e1]; rfl, h.take ht ok ho⟩
  | populate j span =>
    obtain ⟨x', r, pd, new, e1, _, _, _, _, _, hh, _⟩ := CentralFreeList.populate_exact hk y.x h.cfl j span hp
    refine ⟨_, _, by simp only [step, e1, Option.map_some]; rfl, ?_⟩
    refine ⟨CentralFreeList.Reach.step (.populate j span) h.cfl hp e1, ?_, h.tc, h.fl, h.ct⟩
    intro a
    have := h.perm a
    show (r ++ y.held).count a + y.cached.count a + y.flying.count a = x'.held.count a
    rw [hh]; simp only [List.count_append]; omega
  | plunder i =>
    obtain ⟨t, ht⟩ := getElem_some (show i < y.t.length from hp)
    obtain ⟨t', q, e1, ok, _, _, _, hq⟩ := plunder_spec (B := B) (h.tc t (mem_of_get ht)) hB
    refine ⟨_, _, by simp only [step, ht, Option.bind_some, e1, Option.map_some]; rfl, ?_⟩
    refine h.plundered rfl rfl rfl rfl (fun c hc => hc) ht ok ?_
    rcases hq with ⟨rfl, a, _⟩ | ⟨buf, rfl, a, _, b⟩
    · exact Or.inl ⟨rfl, a⟩
    · exact Or.inr ⟨buf, _, rfl, by omega, b⟩
  | plunderNext j =>
    obtain ⟨⟨i, r⟩, hc⟩ := getElem_some (show j < y.conts.length from hp)
    obtain ⟨t, ht⟩ := getElem_some (h.ct _ (mem_of_get hc))
    obtain ⟨t', q, e1, ok, _, _, hq⟩ := turn_spec (B := B) (h.tc t (mem_of_get ht)) hB r
    refine ⟨_, _, by simp only [step, hc, ht, Option.bind_some, e1, Option.map_some]; rfl, ?_⟩
    refine K.plundered (y := { y with conts := y.conts.eraseIdx j }) h rfl rfl rfl rfl
      (fun c hc => mem_eraseIdx_of hc) ht ok ?_
    rcases hq with ⟨rfl, a, _⟩ | ⟨buf, rfl, a, _, b, _⟩
    · exact Or.inl ⟨rfl, by rw [a]⟩
    · exact Or.inr ⟨buf, _, rfl, by omega, b⟩
  | plunderStop j =>
    exact ⟨_, _, rfl, h.cfl, h.perm, h.tc, h.fl, fun c hc => h.ct c (mem_eraseIdx_of hc)⟩
  | shrink i =>
    obtain ⟨t, ht⟩ := getElem_some (show i < y.t.length from hp)
    have hi : i < y.t.length := hp
    obtain ⟨t', b, objs, e1, ok, _, _, _, ho, hl, _⟩ := shrink_spec (B := B) (h.tc t (mem_of_get ht)) hB
    refine ⟨_, _, by simp only [step, ht, Option.bind_some, e1, Option.map_some]; rfl, ?_⟩
    refine K.send (y0 := y) _ _ _ (by omega) (by simp; omega) (by simp) h.cfl ?_
      (ok_set h.tc ok) (fun f hf => hf) (fun c hc => hc) h (by simp)
    intro a
    have h1 := cached_set (y := y) (t' := t') ht a
    rw [ho, List.count_append] at h1
    have h4 := h.perm a
    show y.held.count a + ((y.t.set i t').flatMap TC.objs).count a + y.flying.count a + objs.count a = y.x.held.count a
    omega
  | grow i =>
    obtain ⟨t, ht⟩ := getElem_some (show i < y.t.length from hp)
    obtain ⟨t', b, e1, ok, _, _, _, ho, _⟩ := grow_spec (B := B) (h.tc t (mem_of_get ht))
    refine ⟨_, _, by simp only [step, ht, Option.bind_some, e1, Option.map_some]; rfl, ?_⟩
    have := h.take (objs := []) ht ok (by rw [ho]; simp)
    exact this

theorem Reach.K (hk : k.OK) (hB : B ≤ kMaxObjectsToMove) {y : World} (h : Reach k B y) : K k y := by
  induction h with
  | init w t ht =>
    refine ⟨CentralFreeList.Reach.init w, ?_, ?_, by simp, by simp⟩
    · intro a
      have : t.flatMap TC.objs = [] := by
        rw [List.flatMap_eq_nil_iff]
        intro c hc
        obtain ⟨cap, max, slots, rfl, hcm⟩ := ht c hc
        exact (new_ok hcm).2
      show ([] : List Nat).count a + (t.flatMap TC.objs).count a + 0 = 0
      rw [this]; rfl
    · intro c hc
      obtain ⟨cap, max, slots, rfl, hcm⟩ := ht c hc
      exact (new_ok hcm).1
  | step e _ hp hs ih =>
    obtain ⟨y'', o, e1, hK⟩ := step_K hk hB ih hp
    rw [e1] at hs; cases hs; exact hK

end Verif.TransferCache
