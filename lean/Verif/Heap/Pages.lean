import Verif.PageHeap.Props
/-!
What the steps of the page heap mean for the layers above it, in the form in which the composition needs it.
-/
namespace Verif.PageHeap
open Verif.HugeAddressMap
open Verif.HugeRegion (hlFromPages)
open Verif.HugeAllocator (SysOK)

variable {H N : Nat} {mode : Bool} {s s' : HP} {res : Res}

/-- The answers of the system allocator that an event carries. -/
def Ev.sys : Ev → List Rng
  | .new _ _ _ _ _ s1 s2 _ _ => s1.toList ++ s2.toList
  | .newAligned _ _ _ _ _ _ s1 s2 _ _ => s1.toList ++ s2.toList
  | _ => []

theorem onCache_got {e : HugeCache.Ev} {o : HugeCache.Out} {g : List Rng} (h : s.onCache e = some (s', o, g)) :
    (∀ r ∈ g, ∃ n fr a b, e = .get n fr (some r) a b ∨ e = .take n (some r)) := by
  unfold HP.onCache at h
  split at h
  · cases h
  · next c o' h1 =>
    cases h
    intro r hr
    unfold HugeCache.obtained' at hr
    split at hr
    · next n fr sys a b _ _ =>
      simp only [List.append_nil, Option.mem_toList] at hr
      exact ⟨n, fr, a, b, Or.inl (by rw [← hr])⟩
    · next n sys _ _ =>
      simp only [List.append_nil, Option.mem_toList] at hr
      exact ⟨n, false, 0, 0, Or.inr (by rw [← hr])⟩
    · cases hr

theorem giveBack_got {e : HugeCache.Ev} (he : ∀ n fr r a b, e ≠ .get n fr (some r) a b ∧ e ≠ .take n (some r))
    (h : s.giveBack N e = some (s', res)) : res.got = [] := by
  unfold HP.giveBack at h
  split at h
  · cases h
  · next s1 o g h1 =>
    cases h
    apply List.eq_nil_iff_forall_not_mem.2
    intro r hr
    obtain ⟨n, fr, a, b, h2 | h2⟩ := onCache_got h1 r hr
    · exact (he n fr r a b).1 h2
    · exact (he n fr r a b).2 h2

theorem rawGot_got {n objs : Nat} {dense fr : Bool} {r : Rng} {g : List Rng}
    (h : HP.rawGot N mode s n objs dense r fr g = some (s', res)) : res.got = g := by
  unfold HP.rawGot at h
  simp only at h
  split at h
  · cases h; rfl
  · split at h
    · split at h
      · cases h
      · cases h; rfl
    · cases h

theorem allocRaw_got {n objs : Nat} {dense fr : Bool} {sys : Option Rng} {a b : Nat}
    (h : HP.allocRaw N mode s n objs dense fr sys a b = some (s', res)) : ∀ r ∈ res.got, sys = some r := by
  have key : ∀ {s1 o g}, s.onCache (.get (hlFromPages N n) fr sys a b) = some (s1, o, g) → ∀ r ∈ g, sys = some r := by
    intro s1 o g h1 r hr
    obtain ⟨_, _, _, _, h2 | h2⟩ := onCache_got h1 r hr <;> cases h2
    rfl
  unfold HP.allocRaw at h
  split at h
  · next h1 => cases h; exact key h1
  · next h1 => rw [rawGot_got h]; exact key h1
  · cases h

theorem refill_got {n objs : Nat} {dense fr : Bool} {sys : Option Rng} {a b : Nat}
    (h : HP.refill s n objs dense fr sys a b = some (s', res)) : ∀ r ∈ res.got, sys = some r := by
  have key : ∀ {s1 o g}, s.onCache (.get 1 fr sys a b) = some (s1, o, g) → ∀ r ∈ g, sys = some r := by
    intro s1 o g h1 r hr
    obtain ⟨_, _, _, _, h2 | h2⟩ := onCache_got h1 r hr <;> cases h2
    rfl
  unfold HP.refill at h
  split at h
  · next h1 => cases h; exact key h1
  · next h1 => cases h; exact key h1
  · cases h

theorem addRegion_got {sys : Option Rng} {b : Bool} {g : List Rng}
    (h : HP.addRegion H N s sys = some (s', b, g)) : ∀ r ∈ g, sys = some r := by
  have key : ∀ {s1 o g}, s.onCache (.take H sys) = some (s1, o, g) → ∀ r ∈ g, sys = some r := by
    intro s1 o g h1 r hr
    obtain ⟨_, _, _, _, h2 | h2⟩ := onCache_got h1 r hr <;> cases h2
    rfl
  unfold HP.addRegion at h
  split at h
  · next h1 => cases h; exact key h1
  · next h1 => cases h; exact key h1
  · cases h

theorem largeNew_got {n objs : Nat} {dense u fr : Bool} {sys1 sys2 : Option Rng} {a b : Nat}
    (h : HP.largeNew H N mode s n objs dense u fr sys1 sys2 a b = some (s', res)) :
    ∀ r ∈ res.got, sys1 = some r ∨ sys2 = some r := by
  unfold HP.largeNew at h
  split at h
  · split at h
    · cases h
    · next s1 g h1 =>
      unfold HP.regionMust at h
      split at h
      · cases h; exact fun r hr => Or.inl (addRegion_got h1 r hr)
      · cases h
    · exact fun r hr => Or.inr (allocRaw_got h r hr)
  · exact fun r hr => Or.inr (allocRaw_got h r hr)

theorem largeRegion_got {n objs : Nat} {dense u fr : Bool} {sys1 sys2 : Option Rng} {a b : Nat}
    (h : HP.largeRegion H N mode s n objs dense u fr sys1 sys2 a b = some (s', res)) :
    ∀ r ∈ res.got, sys1 = some r ∨ sys2 = some r := by
  unfold HP.largeRegion at h
  split at h
  · cases h
  · cases h; exact fun r hr => by cases hr
  · exact largeNew_got h

theorem new_got {n objs : Nat} {dense u fr : Bool} {sys1 sys2 : Option Rng} {a b : Nat}
    (h : HP.new H N mode s n objs dense u fr sys1 sys2 a b = some (s', res)) :
    ∀ r ∈ res.got, sys1 = some r ∨ sys2 = some r := by
  unfold HP.new at h
  split at h
  · cases h
  · split at h
    · unfold HP.allocSmall at h
      split at h
      · cases h
      · cases h; exact fun r hr => by cases hr
      · exact fun r hr => Or.inr (refill_got h r hr)
    · split at h
      · unfold HP.allocLarge at h
        split at h
        · exact fun r hr => Or.inr (allocRaw_got h r hr)
        · split at h
          · split at h
            · cases h
            · cases h; exact fun r hr => by cases hr
            · exact largeRegion_got h
          · exact largeRegion_got h
      · exact fun r hr => Or.inr (allocRaw_got h r hr)

theorem releaseHugepage_got {id : Nat} {el : Bool} {ms : Nat} (h : s.releaseHugepage N id el ms = some (s', res)) :
    res.got = [] := by
  unfold HP.releaseHugepage at h
  split at h
  · split at h
    · cases h
    · simp only at h
      split at h
      · exact giveBack_got (fun _ _ _ _ _ => ⟨(fun h => by cases h), fun h => by cases h⟩) h
      · exact giveBack_got (fun _ _ _ _ _ => ⟨(fun h => by cases h), fun h => by cases h⟩) h
  · cases h

theorem afterPut_got {id : Nat} {x : Option Nat} {el : Bool} {ms : Nat} {k : PK}
    (h : s.afterPut N id x el ms k = some (s', res)) : res.got = [] := by
  cases k with
  | a ma =>
    simp only [HP.afterPut] at h
    unfold HP.afterPutA at h
    split at h
    · split at h
      · split at h
        · cases h; rfl
        · cases h
      · cases h; rfl
    · exact releaseHugepage_got h
  | c hp hl =>
    simp only [HP.afterPut] at h
    unfold HP.afterPutC at h
    split at h
    · split at h
      · cases h
      · exact giveBack_got (fun _ _ _ _ _ => ⟨(fun h => by cases h), fun h => by cases h⟩) h
    · split at h
      · cases h
      · split at h
        · split at h
          · exact giveBack_got (fun _ _ _ _ _ => ⟨(fun h => by cases h), fun h => by cases h⟩) h
          · cases h
        · split at h
          · cases h
          · exact giveBack_got (fun _ _ _ _ _ => ⟨(fun h => by cases h), fun h => by cases h⟩) h

theorem fillerPut_got {id p n objs : Nat} {k : PK} {el : Bool} {ms : Nat}
    (h : HP.fillerPut N mode s id p n objs k el ms = some (s', res)) : res.got = [] := by
  unfold HP.fillerPut at h
  split at h
  · cases h
  · cases h; rfl
  · exact afterPut_got h

theorem delete_got {r : Run} {el : Bool} {ms : Nat} {ok : Nat → Bool}
    (h : s.delete H N mode r el ms ok = some (s', res)) : res.got = [] := by
  unfold HP.delete at h
  split at h
  · split at h
    · exact fillerPut_got h
    · cases h
  · unfold HP.deleteOther at h
    split at h
    · cases h
    · cases h; rfl
    · unfold HP.deleteRaw at h
      split at h
      · simp only at h
        split at h
        · split at h
          · exact giveBack_got (fun _ _ _ _ _ => ⟨(fun h => by cases h), fun h => by cases h⟩) h
          · cases h
        · split at h
          · cases h
          · split at h
            · exact fillerPut_got h
            · cases h
      · cases h

theorem releaseFiller_got {desired released : Nat} {x : RelArgs} {calls : List Call}
    (h : s.releaseFiller N mode desired released x calls = some (s', res)) : res.got = [] := by
  unfold HP.releaseFiller at h
  split at h
  · cases h
  · cases h; rfl

theorem releaseSub_got {num released : Nat} {x : RelArgs} {calls : List Call}
    (h : s.releaseSub N mode num released x calls = some (s', res)) : res.got = [] := by
  unfold HP.releaseSub at h
  split at h
  · exact releaseFiller_got h
  · cases h; rfl

/-- Memory a step obtains from the system is memory the system offered. -/
theorem step_got {e : Ev} (h : s.step H N mode e = some (s', res)) : ∀ r ∈ res.got, r ∈ e.sys := by
  have nil : res.got = [] → ∀ r ∈ res.got, r ∈ e.sys := fun hn r hr => by rw [hn] at hr; cases hr
  cases e with
  | new n objs d u fr s1 s2 a b =>
    intro r hr
    have := new_got (H := H) (N := N) (mode := mode) h r hr
    simpa [Ev.sys] using this
  | newAligned n al objs d u fr s1 s2 a b =>
    intro r hr
    have : s1 = some r ∨ s2 = some r := by
      simp only [HP.step] at h
      unfold HP.newAligned at h
      split at h
      · exact new_got h r hr
      · split at h
        · exact Or.inr (allocRaw_got h r hr)
        · cases h
    simpa [Ev.sys] using this
  | refillDone i =>
    apply nil
    simp only [HP.step] at h
    unfold HP.refillDone at h
    split at h
    · cases h
    · split at h
      · cases h
      · cases h; rfl
  | delete r el ms ok => exact nil (delete_got h)
  | putAnswer i ok el ms =>
    apply nil
    simp only [HP.step] at h
    unfold HP.putAnswer at h
    split at h
    · cases h
    · split at h
      · exact afterPut_got h
      · cases h
  | cacheAnswer i ok => exact nil (giveBack_got (fun _ _ _ _ _ => ⟨(fun h => by cases h), fun h => by cases h⟩) h)
  | releaseCached num ms => exact nil (giveBack_got (fun _ _ _ _ _ => ⟨(fun h => by cases h), fun h => by cases h⟩) h)
  | releaseRest num rel x =>
    apply nil
    simp only [HP.step] at h
    unfold HP.releaseRest at h
    split at h
    · split at h
      · cases h
      · exact releaseSub_got h
    · exact releaseSub_got h
  | breakRest num rel x =>
    apply nil
    simp only [HP.step] at h
    unfold HP.breakRest at h
    split at h
    · cases h
    · split at h
      · cases h; rfl
      · exact releaseFiller_got h
  | treatBegin a b =>
    apply nil
    simp only [HP.step] at h
    unfold HP.treatBegin at h
    split at h
    · cases h; rfl
    · cases h
  | treatEnd obs stale ok =>
    apply nil
    simp only [HP.step] at h
    unfold HP.treatEnd at h
    split at h
    · cases h
    · split at h
      · split at h
        · cases h
        · cases h; rfl
      · cases h
  | fetch el ms =>
    apply nil
    simp only [HP.step] at h
    unfold HP.fetch at h
    split at h
    · cases h; rfl
    · exact releaseHugepage_got h

/-- Which events hand out a run, and of how many pages. -/
def Ev.pages (s : HP) : Ev → Option Nat
  | .new n _ _ _ _ _ _ _ _ => some n
  | .newAligned n _ _ _ _ _ _ _ _ _ => some n
  | .refillDone i => (s.refills[i]?).map (·.n)
  | _ => none

/-- A run handed out has as many pages as were asked for. -/
theorem step_run (hN : 2 ≤ N) (hH : 0 < H) {ob : List Rng} {L : List Run} (hr : Reach H N mode s ob L) {e : Ev}
    (he : e.Pre H N ob L s) (h : s.step H N mode e = some (s', res)) {n : Nat} (hp : e.pages s = some n) {r : Run} {b : Bool}
    (ho : res.out = .run r b) : r.n = n := by
  have hnew : ∀ n objs d u fr s1 s2 a' b', Ev.Pre H N ob L s (.new n objs d u fr s1 s2 a' b') →
      s.step H N mode (.new n objs d u fr s1 s2 a' b') = some (s', res) → r.n = n := by
    intro n objs d u fr s1 s2 a' b' he h
    obtain ⟨s2', res2, q1, q2⟩ := new_exact hN hH hr he.1 objs he.2.1 u fr he.2.2.1 he.2.2.2 a' b'
    rw [q1] at h; cases h
    rw [ho] at q2
    rcases q2 with q | q | ⟨r', b', q, q', _⟩
    · cases q
    · cases q
    · cases q; exact q'
  cases e with
  | new m objs d u fr s1 s2 a' b' =>
    cases hp
    exact hnew _ _ _ _ _ _ _ _ _ he h
  | newAligned m al objs d u fr s1 s2 a' b' =>
    cases hp
    simp only [HP.step] at h
    unfold HP.newAligned at h
    split at h
    · exact hnew n objs d u fr s1 s2 a' b' ⟨he.1, fun hd => (he.2.2.1 hd).1, he.2.2.2⟩ h
    · split at h
      · unfold HP.allocRaw at h
        split at h
        · cases h; cases ho
        · unfold HP.rawGot at h
          simp only at h
          split at h
          · next hsl =>
            cases h; cases ho
            have := (hl_spec (N := N) (by omega) n).1
            show hlFromPages N n * N = n
            omega
          · split at h
            · split at h
              · cases h
              · cases h; cases ho; rfl
            · cases h
        · cases h
      · cases h
  | refillDone i =>
    obtain ⟨s2', x, b', q1, q2, _⟩ := refill_exact hN hH hr (show i < s.refills.length from he)
    rw [q2] at h; cases h
    cases ho
    simp only [Ev.pages, q1, Option.map_some, Option.some.injEq] at hp
    exact hp
  | _ => cases hp

/-- Only requests hand out runs. -/
theorem step_run_pages (hN : 2 ≤ N) (hH : 0 < H) {ob : List Rng} {L : List Run} (hr : Reach H N mode s ob L) {e : Ev}
    (he : e.Pre H N ob L s) (h : s.step H N mode e = some (s', res)) {r : Run} {b : Bool}
    (ho : res.out = .run r b) (hne : ∀ r a b c, e ≠ .delete r a b c) : ∃ n, e.pages s = some n := by
  obtain ⟨ow, u, fg, rg, runs, k⟩ := hr.k hN hH
  have quiet : ∀ {q : Option (HP × Res)}, (∃ s' res, q = some (s', res) ∧ res.got = [] ∧ (∀ r b, res.out ≠ .run r b) ∧ Good H N mode s' ob L res) →
      q = some (s', res) → False := by
    rintro q ⟨s1, res1, e1, -, h1, -⟩ h2
    rw [e1] at h2; cases h2
    exact h1 _ _ ho
  have rel : ∀ {q : Option (HP × Res)}, (∃ s' res, q = some (s', res) ∧ res.got = [] ∧ (∃ n, res.out = .released n) ∧ Good H N mode s' ob L res) →
      q = some (s', res) → False := by
    rintro q ⟨s1, res1, e1, -, ⟨n, hn⟩, g⟩ h2
    rw [e1] at h2; cases h2
    rw [ho] at hn; cases hn
  cases e with
  | new => exact ⟨_, rfl⟩
  | newAligned => exact ⟨_, rfl⟩
  | refillDone i =>
    have : i < s.refills.length := he
    exact ⟨_, by simp only [Ev.pages, List.getElem?_eq_getElem this]; rfl⟩
  | delete r el ms ok => exact absurd rfl (hne _ _ _ _)
  | putAnswer i ok el ms => exact (quiet (k.putAnswerOp hN he ok el ms).good h).elim
  | cacheAnswer i ok =>
    obtain ⟨c, o, e1, ho', ow', u', h'⟩ := k.cacheOther (N := N) (e := .answer i ok) (Or.inr ⟨i, ok, rfl, he⟩)
    exact (quiet ⟨_, _, e1, rfl, ho', ow', u', fg, rg, runs, h', by simp⟩ h).elim
  | releaseCached num ms =>
    obtain ⟨c, o, e1, ho', ow', u', h'⟩ := k.cacheOther (N := N) (e := .releaseCached (hlFromPages N num) ms) (Or.inl ⟨_, _, rfl⟩)
    exact (quiet ⟨_, _, e1, rfl, ho', ow', u', fg, rg, runs, h', by simp⟩ h).elim
  | releaseRest num released x => exact (rel (k.releaseRestOp hN num released x) h).elim
  | breakRest num released x => exact (rel (k.breakRestOp hN num released x) h).elim
  | treatBegin A B =>
    obtain ⟨h1, h2, h3, h4⟩ := he
    exact (quiet (k.treatBeginOp hN h1 h2 h3 h4).good h).elim
  | treatEnd obs stale ok =>
    obtain ⟨⟨A, h1⟩, h2⟩ := he
    obtain ⟨s', res, e, h3, h4, h5⟩ := k.treatEndOp hN h1 h2 stale ok
    exact (quiet ⟨s', res, e, h3, (by rw [h4]; intro _ _ h; cases h), h5⟩ h).elim
  | fetch el ms => exact (quiet (k.fetchOp hN he el ms).good h).elim

/-- The kernel is called for memory of this page heap only. -/
theorem calls_cov (hN : 2 ≤ N) (hH : 0 < H) {ob : List Rng} {L : List Run} (hr : Reach H N mode s ob L) {e : Ev}
    (he : e.Pre H N ob L s) (h : s.step H N mode e = some (s', res)) {c : Call} (hc : c ∈ res.calls) {p : Nat} (hp : c.Has p) :
    Cov (res.got ++ ob) (p / N) := by
  have h0 : 0 < N := by omega
  have hcons := conservation hN hH (Reach.step e hr he h) (p / N)
  obtain ⟨ow, u, fg, rg, runs, k⟩ := hr.k hN hH
  obtain ⟨s1, res1, e1, ow', u', fg', rg', runs', k', hfree⟩ := k.step hN hH e he
  rw [h] at e1; cases e1
  apply Classical.byContradiction
  intro hn
  have hno := hcons.2 hn
  rcases hfree c hc with ⟨id, hid, h1, h2, -⟩ | ⟨id, hid, h1, h2, -⟩
  · have hd : p / N = (s'.fill.tr id).loc := by
      obtain ⟨g1, g2⟩ := hp
      rw [Nat.add_mul] at h2
      have e : p = (s'.fill.tr id).loc * N + (p - (s'.fill.tr id).loc * N) := by omega
      rw [e, div_add (by omega)]
    refine hno (s'.trk (p / N) ≠ none) (by simp [HP.places]) ?_
    rw [(k'.trk (p / N) id).2 ⟨hid, hd.symm⟩]; simp
  · have hd : (s'.regs.reg id).loc ≤ p / N ∧ p / N < (s'.regs.reg id).loc + H := by
      obtain ⟨g1, g2⟩ := hp
      exact ⟨(Nat.le_div_iff_mul_le h0).2 (by omega), (Nat.div_lt_iff_lt_mul h0).2 (by omega)⟩
    exact hno (s'.inRegion H (p / N)) (by simp [HP.places]) ⟨id, hid, hd⟩

theorem leaving_cov (hN : 2 ≤ N) (hH : 0 < H) {ob : List Rng} {L : List Run} (hr : Reach H N mode s ob L) {p : Nat}
    (hp : s.leaving N p) : Cov ob (p / N) := by
  have hcons := conservation hN hH hr (p / N)
  obtain ⟨ow, u, fg, rg, runs, k⟩ := hr.k hN hH
  apply Classical.byContradiction
  intro hn
  have hno := hcons.2 hn
  rcases hp with hb | ⟨y, hy, hl⟩
  · exact hno (Cov s.cache.busy (p / N)) (by simp [HP.places]) hb
  · have hfl : y.id ∈ fg.flight.map Prod.fst := by
      rw [k.flight, List.map_map]
      exact List.mem_map.2 ⟨y, hy, rfl⟩
    have hid : y.id ∈ Filler.ids s.fill fg := by
      unfold Filler.ids; simp only [List.mem_append]; exact Or.inr (Or.inl hfl)
    refine hno (s.trk (p / N) ≠ none) (by simp [HP.places]) ?_
    rw [(k.trk (p / N) y.id).2 ⟨hid, hl⟩]; simp

/-- What the system hands out is not address 0, and is new to this page heap. -/
theorem sys_ok {ob : List Rng} {L : List Run} {e : Ev} (he : e.Pre H N ob L s) {r : Rng} (hr : r ∈ e.sys) : r.s ≠ 0 := by
  cases e with
  | new n objs d u fr s1 s2 a b =>
    obtain ⟨-, -, h1, h2⟩ := he
    simp only [Ev.sys, List.mem_append, Option.mem_toList] at hr
    rcases hr with hr | hr
    · exact (h1 r hr).2.1
    · exact (h2 r hr).2.1
  | newAligned n al objs d u fr s1 s2 a b =>
    obtain ⟨-, -, -, h1, h2⟩ := he
    simp only [Ev.sys, List.mem_append, Option.mem_toList] at hr
    rcases hr with hr | hr
    · exact (h1 r hr).2.1
    · exact (h2 r hr).2.1
  | _ => cases hr

end Verif.PageHeap
