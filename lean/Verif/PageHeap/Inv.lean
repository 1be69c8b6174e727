import Verif.PageHeap.Spec
import Verif.PageHeap.Own
import Verif.Filler.Extra
import Verif.HugeRegion.Props
/-! The invariant of the page heap: every hugepage obtained is in exactly one part, and the runs in use are those the
parts know. -/
namespace Verif.PageHeap
open Verif.HugeAddressMap Verif.HugeAllocator
open Verif.PageTracker (Alloc PT)
open Verif.HugeRegion (hlFromPages)
open Verif.Filler (upd)

/-- Where a run in use comes from: the filler; a region; whole hugepages; whole hugepages and the start of one more that
the filler has. -/
inductive Kind where
  | fill (id : Nat) (a : Alloc)
  | region (id i : Nat)
  | whole (hp hl : Nat)
  | tail (hp hl id : Nat) (a : Alloc)

abbrev X := Run × Kind

def fpart (id : Nat) : X → Option Alloc
  | (_, .fill id' a) => if id' = id then some a else none
  | (_, .tail _ _ id' a) => if id' = id then some a else none
  | _ => none

def rpart (id : Nat) : X → Option (Nat × Nat)
  | (r, .region id' i) => if id' = id then some (i, r.n) else none
  | _ => none

def rawPart : X → Option Rng
  | (_, .whole hp hl) => some ⟨hp, hl⟩
  | (_, .tail hp hl _ _) => some ⟨hp, hl⟩
  | _ => none

def donor : X → Option Nat
  | (r, .fill id _) => if r.donated then some id else none
  | (_, .tail _ _ id _) => some id
  | _ => none

def PendPut.donor (x : PendPut) : Option Nat :=
  match x.k with
  | .a true => some x.id
  | .a false => none
  | .c _ _ => some x.id

def PendPut.raw (x : PendPut) : Option Rng :=
  match x.k with
  | .a _ => none
  | .c hp hl => some ⟨hp, hl - 1⟩

def Valid (N : Nat) (s : HP) : X → Prop
  | (r, .fill id a) => r.p = (s.fill.tr id).loc * N + a.i ∧ r.n = a.n ∧ r.objs = a.objs
  | (r, .region id i) => id ∈ s.regs.ids ∧ r.p = (s.regs.reg id).loc * N + i ∧ r.donated = false
  | (r, .whole hp hl) => 0 < hl ∧ r.p = hp * N ∧ r.n = hl * N ∧ r.donated = false
  | (r, .tail hp hl id a) =>
    0 < hl ∧ a.i = 0 ∧ a.n < N ∧ (s.fill.tr id).loc = hp + hl ∧ r.p = hp * N ∧ r.n = hl * N + a.n ∧ r.objs = a.objs ∧
      r.donated = true

def PendOk (s : HP) (x : PendPut) : Prop :=
  match x.k with
  | .a _ => True
  | .c hp hl => 2 ≤ hl ∧ (s.fill.tr x.id).loc + 1 = hp + hl

/-- The trackers: those a call has in hand and those of the filler. -/
def trackers (s : HP) (lo : List Nat) (fg : Filler.Gh) : List Nat := lo ++ Filler.ids s.fill fg

def owners (s : HP) (T : List Nat) (runs : List X) (ex : List Rng) : List Rng :=
  T.map (fun id => ⟨(s.fill.tr id).loc, 1⟩) ++ (runs.filterMap rawPart ++ (s.refills.map (fun x => ⟨x.hp, 1⟩) ++
    (s.puts.filterMap PendPut.raw ++ (ex ++ s.cache.taken))))

def donors (s : HP) (runs : List X) (dn : List Nat) : List Nat :=
  runs.filterMap donor ++ (s.puts.filterMap PendPut.donor ++ dn)

def ab (i : Info) : Nat := if i.abandoned then i.count else 0

/-- `lo`, `ex`, `dn`: the trackers, ranges and donated trackers a running call has in hand. -/
structure K (H N : Nat) (mode : Bool) (s : HP) (ob : List Rng) (L : List Run) (lo : List Nat) (ex : List Rng) (dn : List Nat)
    (ow : PSet) (u : Nat) (fg : Filler.Gh) (rg : HugeRegion.Gh) (runs : List X) : Prop where
  cache : HugeCache.Reach s.cache ob ow u
  fill : Filler.Reach N mode s.fill fg
  regs : HugeRegion.Reach H N s.regs rg
  perm : (runs.map Prod.fst).Perm L
  own : Own ow (owners s (trackers s lo fg) runs ex)
  nd : (trackers s lo fg).Nodup
  flight : fg.flight = s.puts.map fun x => (x.id, x.rest)
  treat : fg.treat = s.treat
  freshF : ∀ id ∈ trackers s lo fg, id < s.next
  freshR : ∀ id ∈ s.regs.ids, id < s.next
  trk : ∀ p id, s.trk p = some id ↔ id ∈ trackers s lo fg ∧ (s.fill.tr id).loc = p
  taken : s.cache.taken.Perm (s.regs.ids.map fun id => ⟨(s.regs.reg id).loc, H⟩)
  flive : ∀ id, (fg.live id).Perm (runs.filterMap (fpart id))
  rlive : ∀ id ∈ s.regs.ids, (rg.live id).Perm (runs.filterMap (rpart id))
  valid : ∀ x ∈ runs, Valid N s x
  pend : ∀ x ∈ s.puts, PendOk s x
  donNd : (donors s runs dn).Nodup
  donOk : ∀ id ∈ donors s runs dn, (s.info id).donated = true ∧ (s.info id).abandoned = false
  donated : s.donated = (trackers s lo fg).countP fun id => (s.info id).donated
  abandoned : s.abandoned = ((trackers s lo fg).map fun id => ab (s.info id)).sum
  plain : ∀ id ∈ trackers s lo fg, (s.info id).donated = false → (s.info id).count = 0 ∧ (s.info id).abandoned = false
  refs : ∀ x ∈ s.refills, 0 < x.n ∧ x.n ≤ N ∧ (x.dense = true → x.n = 1)

variable {H N : Nat} {mode : Bool}

theorem countP_congr_mem {α : Type} {p q : α → Bool} : ∀ {l : List α}, (∀ x ∈ l, p x = q x) → l.countP p = l.countP q
  | [], _ => rfl
  | a :: l, h => by
    rw [List.countP_cons, List.countP_cons, h a (by simp), countP_congr_mem (fun x hx => h x (by simp [hx]))]

theorem filterMap_perm {α β : Type} (f : α → Option β) {l l' : List α} (h : l.Perm l') :
    (l.filterMap f).Perm (l'.filterMap f) := h.filterMap f

/-- Reordering the runs. -/
theorem K.reorder {s : HP} {ob : List Rng} {L : List Run} {lo : List Nat} {ex : List Rng} {dn : List Nat} {ow : PSet} {u : Nat}
    {fg : Filler.Gh} {rg : HugeRegion.Gh} {runs runs' : List X} {ex' : List Rng} {dn' : List Nat}
    (k : K H N mode s ob L lo ex dn ow u fg rg runs) (hp : runs.Perm runs')
    (he : ex.Perm ex') (hd : dn.Perm dn') : K H N mode s ob L lo ex' dn' ow u fg rg runs' := by
  have hdp : (donors s runs dn).Perm (donors s runs' dn') := (hp.filterMap _).append ((List.Perm.refl _).append hd)
  exact {
    cache := k.cache, fill := k.fill, regs := k.regs
    perm := (hp.symm.map _).trans k.perm
    own := k.own.perm (by
      unfold owners
      exact (List.Perm.refl _).append ((hp.filterMap _).append ((List.Perm.refl _).append ((List.Perm.refl _).append
        (he.append (List.Perm.refl _))))))
    nd := k.nd, flight := k.flight, treat := k.treat, freshF := k.freshF, freshR := k.freshR, trk := k.trk, taken := k.taken
    flive := fun id => (k.flive id).trans (hp.filterMap _)
    rlive := fun id hid => (k.rlive id hid).trans (hp.filterMap _)
    valid := fun x hx => k.valid x (hp.mem_iff.2 hx)
    pend := k.pend
    donNd := hdp.nodup_iff.1 k.donNd
    donOk := fun id hid => k.donOk id (hdp.mem_iff.2 hid)
    donated := k.donated, abandoned := k.abandoned, plain := k.plain, refs := k.refs }

theorem K.relive {s : HP} {ob : List Rng} {L L' : List Run} {lo : List Nat} {ex : List Rng} {dn : List Nat} {ow : PSet} {u : Nat}
    {fg : Filler.Gh} {rg : HugeRegion.Gh} {runs : List X}
    (k : K H N mode s ob L lo ex dn ow u fg rg runs) (hp : L.Perm L') : K H N mode s ob L' lo ex dn ow u fg rg runs :=
  { k with perm := k.perm.trans hp }

/-- A change of the filler (and of the calls waiting in it and the runs). -/
theorem K.refill {s : HP} {ob : List Rng} {L : List Run} {lo : List Nat} {ex : List Rng} {dn : List Nat} {ow : PSet} {u : Nat}
    {fg : Filler.Gh} {rg : HugeRegion.Gh} {runs : List X} (k : K H N mode s ob L lo ex dn ow u fg rg runs)
    {f : Filler.F} {fg' : Filler.Gh} {L' : List Run} {lo' : List Nat} {ex' : List Rng} {dn' : List Nat} {runs' : List X} {puts' : List PendPut}
    {treat' : Option (List Nat × List Nat)}
    (hr : Filler.Reach N mode f fg') (hT : (lo' ++ Filler.ids f fg').Perm (trackers s lo fg))
    (hloc : ∀ x, (f.tr x).loc = (s.fill.tr x).loc)
    (hperm : (runs'.map Prod.fst).Perm L')
    (hraw : (runs'.filterMap rawPart ++ (puts'.filterMap PendPut.raw ++ ex')).Perm
      (runs.filterMap rawPart ++ (s.puts.filterMap PendPut.raw ++ ex)))
    (hfl : fg'.flight = puts'.map fun x => (x.id, x.rest)) (htr : fg'.treat = treat')
    (hlive : ∀ id, (fg'.live id).Perm (runs'.filterMap (fpart id)))
    (hrl : ∀ id, (runs.filterMap (rpart id)).Perm (runs'.filterMap (rpart id)))
    (hv : ∀ x ∈ runs', Valid N s x) (hpd : ∀ x ∈ puts', PendOk s x)
    (hdn : (runs'.filterMap donor ++ (puts'.filterMap PendPut.donor ++ dn')).Perm (donors s runs dn)) :
    K H N mode { s with fill := f, puts := puts', treat := treat' } ob L' lo' ex' dn' ow u fg' rg runs' := by
  have hmem : ∀ id, id ∈ lo' ++ Filler.ids f fg' ↔ id ∈ trackers s lo fg := fun id => hT.mem_iff
  exact {
    cache := k.cache, fill := hr, regs := k.regs, perm := hperm
    own := k.own.perm (by
      have h1 : ((lo' ++ Filler.ids f fg').map fun id => (⟨(f.tr id).loc, 1⟩ : Rng)).Perm
          ((trackers s lo fg).map fun id => ⟨(s.fill.tr id).loc, 1⟩) := by
        have : (fun id => (⟨(f.tr id).loc, 1⟩ : Rng)) = fun id => ⟨(s.fill.tr id).loc, 1⟩ := by
          funext id; rw [hloc id]
        rw [this]; exact hT.map _
      show (owners s (trackers s lo fg) runs ex).Perm (owners _ (lo' ++ Filler.ids f fg') runs' ex')
      unfold owners
      simp only []
      rw [List.perm_iff_count] at h1 hraw ⊢
      intro a
      have e1 := h1 a
      have e2 := hraw a
      simp only [List.count_append] at e1 e2 ⊢
      omega)
    nd := hT.nodup_iff.2 k.nd, flight := hfl, treat := htr
    freshF := fun id hid => k.freshF id ((hmem id).1 hid), freshR := k.freshR
    trk := fun p id => by
      rw [show (HP.trk { s with fill := f, puts := puts', treat := treat' }) = s.trk from rfl, k.trk]
      show _ ↔ id ∈ lo' ++ Filler.ids f fg' ∧ (f.tr id).loc = p
      rw [hmem id, hloc id]
    taken := k.taken, flive := hlive
    rlive := fun id hid => (k.rlive id hid).trans (hrl id)
    valid := fun x hx => by
      have := hv x hx
      obtain ⟨r, kd⟩ := x
      cases kd <;> simp only [Valid] at this ⊢ <;> first | rw [hloc]; exact this | exact this
    pend := fun x hx => by
      have := hpd x hx
      unfold PendOk at this ⊢
      simp only [hloc]; exact this
    donNd := hdn.nodup_iff.2 k.donNd
    donOk := fun id hid => k.donOk id (hdn.mem_iff.1 hid)
    donated := by
      show s.donated = List.countP _ (lo' ++ Filler.ids f fg')
      rw [hT.countP_eq]; exact k.donated
    abandoned := by
      show s.abandoned = List.sum (List.map _ (lo' ++ Filler.ids f fg'))
      rw [(hT.map _).sum_nat]; exact k.abandoned
    plain := fun id hid => k.plain id ((hmem id).1 hid), refs := k.refs }

/-! ### The cache -/

/-- A change of the cache. -/
theorem K.recache {s : HP} {ob : List Rng} {L : List Run} {lo : List Nat} {ex : List Rng} {dn : List Nat} {ow : PSet} {u : Nat}
    {fg : Filler.Gh} {rg : HugeRegion.Gh} {runs : List X} (k : K H N mode s ob L lo ex dn ow u fg rg runs)
    {c : HugeCache.S} {ob' : List Rng} {ow' : PSet} {u' : Nat} {ex' : List Rng} (hr : HugeCache.Reach c ob' ow' u')
    (ht : c.taken = s.cache.taken)
    (ho : Own ow' (owners s (trackers s lo fg) runs ex')) :
    K H N mode { s with cache := c } ob' L lo ex' dn ow' u' fg rg runs := {
  cache := hr, fill := k.fill, regs := k.regs, perm := k.perm
  own := by
    show Own ow' (owners { s with cache := c } (trackers s lo fg) runs ex')
    unfold owners at ho ⊢
    simp only []
    rw [ht]; exact ho
  nd := k.nd, flight := k.flight, treat := k.treat, freshF := k.freshF, freshR := k.freshR, trk := k.trk
  taken := by
    show c.taken.Perm _
    rw [ht]; exact k.taken
  flive := k.flive, rlive := k.rlive, valid := k.valid, pend := k.pend, donNd := k.donNd, donOk := k.donOk
  donated := k.donated, abandoned := k.abandoned, plain := k.plain, refs := k.refs }

theorem owners_cons {s : HP} {T : List Nat} {runs : List X} {r : Rng} {ex : List Rng} :
    (owners s T runs (r :: ex)).Perm (r :: owners s T runs ex) := by
  unfold owners
  rw [List.perm_iff_count]
  intro a
  simp only [List.count_append, List.count_cons]
  omega

/-- A request of the cache. -/
theorem K.cacheGet {s : HP} {ob : List Rng} {L : List Run} {lo : List Nat} {ex : List Rng} {dn : List Nat} {ow : PSet} {u : Nat}
    {fg : Filler.Gh} {rg : HugeRegion.Gh} {runs : List X} (k : K H N mode s ob L lo ex dn ow u fg rg runs)
    {n : Nat} (hn : 0 < n) (fr : Bool) {sys : Option Rng} (hs : SysOK ob n sys) (a b : Nat) :
    (∃ fr' asked g, s.onCache (.get n fr sys a b) = some (s, .got none fr' asked, g) ∧
      ∃ ow' u', K H N mode s (g ++ ob) L lo ex dn ow' u' fg rg runs) ∨
    ∃ c r fr' asked g, s.onCache (.get n fr sys a b) = some ({ s with cache := c }, .got (some r) fr' asked, g) ∧ r.n = n ∧
      (∀ p, r.Has p → ¬ ow p) ∧
      ∃ ow' u', K H N mode { s with cache := c } (g ++ ob) L lo (r :: ex) dn ow' u' fg rg runs := by
  obtain ⟨c, res, fr', asked, e, h1, -, h3⟩ := HugeCache.get_exact k.cache n hn fr sys hs a b
  have ht := step_taken e (by intro _ _ h; cases h)
  have hR := HugeCache.Reach.step _ k.cache (show HugeCache.Ev.Pre ob ow s.cache (.get n fr sys a b) from ⟨hn, hs⟩) e
  rw [obtained_app] at hR
  cases res with
  | none =>
    left
    have hc : c = s.cache := (h3 rfl).2
    subst hc
    refine ⟨fr', asked, HugeCache.obtained' [] (.get n fr sys a b) (.got none fr' asked), ?_, ow,
      HugeCache.unbacked' s.cache u (.get n fr sys a b), ?_⟩
    · unfold HP.onCache; rw [e]
    · exact k.recache hR rfl k.own
  | some r =>
    right
    obtain ⟨hrn, hno, -⟩ := h1 r rfl
    refine ⟨c, r, fr', asked, _, ?_, hrn, fun p hp => (hno p hp).1, _, _, k.recache hR ht ?_⟩
    · unfold HP.onCache; rw [e]
    · exact (k.own.add (by omega) (fun p hp => (hno p hp).1)).perm owners_cons.symm

/-- A range in hand is not one of the regions'. -/
theorem K.not_taken {s : HP} {ob : List Rng} {L : List Run} {lo : List Nat} {ex : List Rng} {dn : List Nat} {ow : PSet} {u : Nat}
    {fg : Filler.Gh} {rg : HugeRegion.Gh} {runs : List X} {r : Rng} (k : K H N mode s ob L lo (r :: ex) dn ow u fg rg runs) :
    0 < r.n ∧ (∀ p, r.Has p → ow p) ∧ ∀ p, r.Has p → ¬ Cov s.cache.taken p := by
  have ho := k.own.perm owners_cons
  refine ⟨ho.pos r (by simp), fun p hp => (ho.cov p).2 ⟨r, by simp, hp⟩, ?_⟩
  rintro p hp ⟨q, hq, hqp⟩
  have : Own ow ([r] ++ owners s (trackers s lo fg) runs ex) := ho
  refine this.apart (by simp) (b := q) ?_ hp hqp
  unfold owners
  simp [hq]

/-- A range is given back to the cache. -/
theorem K.giveBack {s : HP} {ob : List Rng} {L : List Run} {lo : List Nat} {ex : List Rng} {dn : List Nat} {ow : PSet} {u : Nat}
    {fg : Filler.Gh} {rg : HugeRegion.Gh} {runs : List X} {r : Rng} (k : K H N mode s ob L lo (r :: ex) dn ow u fg rg runs)
    {e : HugeCache.Ev} (he : e = .releaseUnbacked r ∨ ∃ el ms, e = .release r el ms) :
    ∃ c o, s.giveBack N e = some ({ s with cache := c }, ⟨o, [], []⟩) ∧ (∀ r b, o ≠ .run r b) ∧
      ∃ ow' u', K H N mode { s with cache := c } ob L lo ex dn ow' u' fg rg runs := by
  obtain ⟨h1, h2, h3⟩ := k.not_taken
  have hpre : e.Pre ob ow s.cache := by
    rcases he with rfl | ⟨el, ms, rfl⟩ <;> exact ⟨h1, h2, h3⟩
  obtain ⟨c, o, e1⟩ := HugeCache.step_defined k.cache e hpre
  have ht := step_taken e1 (by rcases he with rfl | ⟨el, ms, rfl⟩ <;> (intro _ _ h; cases h))
  have hR := HugeCache.Reach.step _ k.cache hpre e1
  have hob : ∀ l, HugeCache.obtained' l e o = l := by
    intro l; rcases he with rfl | ⟨el, ms, rfl⟩ <;> rfl
  have how : HugeCache.owned' ow e o = fun p => ow p ∧ ¬ r.Has p := by
    rcases he with rfl | ⟨el, ms, rfl⟩ <;> (cases o <;> rfl)
  rw [hob, how] at hR
  refine ⟨c, outOf N o, ?_, ?_, _, _, k.recache hR ht (k.own.perm owners_cons).remove⟩
  · unfold HP.giveBack HP.onCache; rw [e1]; simp only []; rw [hob]
  · intro r b; cases o <;> simp [outOf]

/-- The other calls of the cache. -/
theorem K.cacheOther {s : HP} {ob : List Rng} {L : List Run} {lo : List Nat} {ex : List Rng} {dn : List Nat} {ow : PSet} {u : Nat}
    {fg : Filler.Gh} {rg : HugeRegion.Gh} {runs : List X} (k : K H N mode s ob L lo ex dn ow u fg rg runs)
    {e : HugeCache.Ev} (he : (∃ n ms, e = .releaseCached n ms) ∨ ∃ i ok, e = .answer i ok ∧ i < s.cache.inflight.length) :
    ∃ c o, s.giveBack N e = some ({ s with cache := c }, ⟨o, [], []⟩) ∧ (∀ r b, o ≠ .run r b) ∧
      ∃ ow' u', K H N mode { s with cache := c } ob L lo ex dn ow' u' fg rg runs := by
  have hpre : e.Pre ob ow s.cache := by
    rcases he with ⟨n, ms, rfl⟩ | ⟨i, ok, rfl, hi⟩
    · trivial
    · exact hi
  obtain ⟨c, o, e1⟩ := HugeCache.step_defined k.cache e hpre
  have ht := step_taken e1 (by rcases he with ⟨n, ms, rfl⟩ | ⟨i, ok, rfl, hi⟩ <;> (intro _ _ h; cases h))
  have hR := HugeCache.Reach.step _ k.cache hpre e1
  have hob : ∀ l, HugeCache.obtained' l e o = l := by
    intro l; rcases he with ⟨n, ms, rfl⟩ | ⟨i, ok, rfl, hi⟩ <;> rfl
  have how : HugeCache.owned' ow e o = ow := by
    rcases he with ⟨n, ms, rfl⟩ | ⟨i, ok, rfl, hi⟩ <;> (cases o <;> rfl)
  rw [hob, how] at hR
  refine ⟨c, outOf N o, ?_, ?_, _, _, k.recache hR ht k.own⟩
  · unfold HP.giveBack HP.onCache; rw [e1]; simp only []; rw [hob]
  · intro r b; cases o <;> simp [outOf]

/-- A new region. -/
theorem K.addRegion {s : HP} {ob : List Rng} {L : List Run} {ow : PSet} {u : Nat}
    {fg : Filler.Gh} {rg : HugeRegion.Gh} {runs : List X} (k : K H N mode s ob L [] [] [] ow u fg rg runs) (hN : 0 < N) (hH : 0 < H)
    {sys : Option Rng} (hs : SysOK ob H sys) :
    s.addRegion H N sys = some (s, false, []) ∨
    ∃ s' g, s.addRegion H N sys = some (s', true, g) ∧ s.next ∈ s'.regs.ids ∧
      ∃ ow' u' rg', rg'.live s.next = [] ∧ K H N mode s' (g ++ ob) L [] [] [] ow' u' fg rg' runs := by
  obtain ⟨c, res, asked, e, htk, h1, h3⟩ := HugeCache.take_exact k.cache H hH sys hs
  have hR := HugeCache.Reach.step _ k.cache (show HugeCache.Ev.Pre ob ow s.cache (.take H sys) from ⟨hH, hs⟩) e
  cases res with
  | none =>
    left
    have hc : c = s.cache := h3 rfl
    subst hc
    have hg : HugeCache.obtained' [] (.take H sys) (.got none true asked) = [] := by
      have e' : HugeCache.takeRange s.cache H sys = some (s.cache, .got none true asked) := e
      obtain ⟨a', res', asked', e2, -, hask, -, hnone⟩ := HugeAllocator.get_spec k.cache.K.j hH hs
      unfold HugeCache.takeRange at e'
      rw [e2] at e'
      simp only [Option.some.injEq, Prod.mk.injEq, HugeCache.Out.got.injEq] at e'
      obtain ⟨-, e3, -, e4⟩ := e'
      subst e3; subst e4
      rcases (hnone rfl).2.2 with h | h
      · subst h; cases asked' <;> rfl
      · cases asked' with
        | false => rfl
        | true => have := (hask.1 rfl).2; omega
    unfold HP.addRegion HP.onCache
    rw [e]; simp only [hg]
  | some r =>
    right
    obtain ⟨hrn, hno⟩ := h1 r rfl
    rw [obtained_app] at hR
    have htk' : c.taken = r :: s.cache.taken := htk
    have hnid : s.next ∉ s.regs.ids := fun hc => Nat.lt_irrefl _ (k.freshR _ hc)
    have hne : ∀ j ∈ s.regs.ids, j ≠ s.next := fun j hj e => hnid (e ▸ hj)
    have hids : ∀ {x : HugeRegion.R}, (s.regs.contribute s.next x).ids.Perm (s.next :: s.regs.ids) := by
      intro x
      refine (HugeRegion.addToList_spec (fun j => (HugeRegion.upd s.regs.reg s.next x j).trk.longestFree) s.next s.regs.ids ?_).1
      refine List.Pairwise.imp_of_mem ?_ (k.regs.ks hN).sorted
      intro a b ha hb hab
      rw [HugeRegion.upd_ne _ _ (hne a ha), HugeRegion.upd_ne _ _ (hne b hb)]; exact hab
    have hreg : ∀ {x : HugeRegion.R} {j}, j ≠ s.next → (s.regs.contribute s.next x).reg j = s.regs.reg j := by
      intro x j hj; exact HugeRegion.upd_ne _ _ hj
    have hregs : ∀ {x : HugeRegion.R}, (s.regs.contribute s.next x).reg s.next = x := by
      intro x; exact HugeRegion.upd_same _ _ _
    have hrr := HugeRegion.Reach.contribute s.next r.s k.regs hnid (by
      intro j hj
      have hj' : (⟨(s.regs.reg j).loc, H⟩ : Rng) ∈ s.cache.taken := k.taken.mem_iff.2 (List.mem_map.2 ⟨j, hj, rfl⟩)
      have := apart_le (a := r) (b := ⟨(s.regs.reg j).loc, H⟩) (by omega) hH (by
        intro p hp hq
        exact (hno p hp).1 ((HugeCache.conservation k.cache).2.2.2.2.2.2.2.2.1 p ⟨_, hj', hq⟩))
      rw [hrn] at this
      exact this)
    refine ⟨{ s with cache := c, regs := s.regs.contribute s.next (HugeRegion.R.new H N r.s), next := s.next + 1 },
      HugeCache.obtained' [] (.take H sys) (.got (some r) true asked), ?_, ?_, fun p => ow p ∨ r.Has p, u,
      ⟨HugeRegion.upd rg.live s.next [], HugeRegion.upd rg.mem s.next fun _ => False⟩, ?_, ?_⟩
    · unfold HP.addRegion HP.onCache
      rw [e]
    · exact hids.mem_iff.2 (by simp)
    · simp [HugeRegion.upd_same]
    · exact {
        cache := hR, fill := k.fill, regs := hrr, perm := k.perm
        own := by
          refine (k.own.add (r := r) (by omega) (fun p hp => (hno p hp).1)).perm ?_
          show (r :: owners s (trackers s [] fg) runs []).Perm (owners _ (trackers s [] fg) runs [])
          unfold owners
          simp only []
          rw [htk', List.perm_iff_count]
          intro a
          simp only [List.count_append, List.count_cons]
          omega
        nd := k.nd, flight := k.flight, treat := k.treat
        freshF := fun id hid => Nat.lt_succ_of_lt (k.freshF id hid)
        freshR := fun id hid => by
          rcases List.mem_cons.1 (hids.mem_iff.1 hid) with h | h
          · rw [h]; exact Nat.lt_succ_self _
          · exact Nat.lt_succ_of_lt (k.freshR id h)
        trk := k.trk
        taken := by
          show c.taken.Perm _
          rw [htk']
          refine List.Perm.trans ?_ (hids.symm.map _)
          show (r :: s.cache.taken).Perm _
          rw [List.map_cons, hregs]
          have : r = ⟨(HugeRegion.R.new H N r.s).loc, H⟩ := by
            show r = ⟨r.s, H⟩
            rw [← hrn]
          rw [← this]
          refine List.Perm.cons _ (k.taken.trans ?_)
          refine List.Perm.of_eq (List.map_congr_left ?_)
          intro j hj
          rw [hreg (fun h => hnid (h ▸ hj))]
        flive := k.flive
        rlive := fun id hid => by
          show (HugeRegion.upd rg.live s.next [] id).Perm _
          by_cases hid' : id = s.next
          · subst hid'
            rw [HugeRegion.upd_same]
            have : runs.filterMap (rpart s.next) = [] := by
              rw [List.filterMap_eq_nil_iff]
              intro x hx
              have hv := k.valid x hx
              obtain ⟨r', kd⟩ := x
              cases kd with
              | region id i =>
                simp only [rpart]
                rw [if_neg]
                intro h
                exact hnid (h ▸ hv.1)
              | _ => rfl
            rw [this]
          · rw [HugeRegion.upd_ne _ _ hid']
            rcases List.mem_cons.1 (hids.mem_iff.1 hid) with h | h
            · exact absurd h hid'
            · exact k.rlive id h
        valid := fun x hx => by
          have hv := k.valid x hx
          obtain ⟨r', kd⟩ := x
          cases kd with
          | region id i =>
            refine ⟨hids.mem_iff.2 (by simp [hv.1]), ?_, hv.2.2⟩
            rw [hreg (fun h => hnid (h ▸ hv.1))]; exact hv.2.1
          | _ => exact hv
        pend := k.pend, donNd := k.donNd, donOk := k.donOk
        donated := k.donated, abandoned := k.abandoned, plain := k.plain, refs := k.refs }

end Verif.PageHeap
