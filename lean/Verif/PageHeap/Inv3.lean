import Verif.PageHeap.Inv2
/-! The operations of the page heap keep the invariant. -/
namespace Verif.PageHeap
open Verif.HugeAddressMap Verif.HugeAllocator
open Verif.PageTracker (Alloc PT)
open Verif.HugeRegion (hlFromPages)
open Verif.Filler (upd upd_same upd_ne)
open Verif.RangeTracker (subCount)

variable {H N : Nat} {mode : Bool}

/-- The runs in use after an operation that does not return one. -/
def after (L : List Run) : Out → List Run
  | .run r _ => r :: L
  | _ => L

/-- The call concerns pages of one hugepage of the filler, or of one region, that no run uses. -/
def CallFree (H N : Nat) (s : HP) (fg : Filler.Gh) (rg : HugeRegion.Gh) (c : Call) : Prop :=
  (∃ id, id ∈ Filler.ids s.fill fg ∧ (s.fill.tr id).loc * N ≤ c.p ∧ c.p + c.n ≤ ((s.fill.tr id).loc + 1) * N ∧
    ∀ a ∈ fg.live id, ∀ j, a.Has j → ¬ c.Has ((s.fill.tr id).loc * N + j)) ∨
  (∃ id, id ∈ s.regs.ids ∧ (s.regs.reg id).loc * N ≤ c.p ∧ c.p + c.n ≤ ((s.regs.reg id).loc + H) * N ∧
    ∀ j, c.Has ((s.regs.reg id).loc * N + j) → HugeRegion.usedBy (rg.live id) j = false)

/-- What every operation establishes. -/
def Good (H N : Nat) (mode : Bool) (s' : HP) (ob : List Rng) (L' : List Run) (res : Res) : Prop :=
  ∃ ow u fg rg runs, K H N mode s' (res.got ++ ob) L' [] [] [] ow u fg rg runs ∧ ∀ c ∈ res.calls, CallFree H N s' fg rg c

theorem hl_spec (hN : 0 < N) (n : Nat) : n ≤ hlFromPages N n * N ∧ hlFromPages N n * N < n + N := by
  unfold hlFromPages
  have h1 := Nat.div_add_mod n N
  have h2 := Nat.mod_lt n hN
  rw [Nat.mul_comm] at h1
  by_cases hz : n % N = 0
  · rw [if_neg (by simp [hz]), Nat.add_zero]; omega
  · rw [if_pos hz, Nat.add_mul]; omega

theorem hl_pos (hN : 0 < N) {n : Nat} (hn : 0 < n) : 0 < hlFromPages N n := by
  rcases Nat.eq_zero_or_pos (hlFromPages N n) with h | h
  · have := (hl_spec hN n).1
    rw [h] at this; omega
  · exact h

theorem hl_whole (hN : 0 < N) (k : Nat) : hlFromPages N (k * N) = k := by
  unfold hlFromPages
  rw [Nat.mul_mod_left, if_neg (by simp), Nat.mul_div_cancel _ hN]; rfl

theorem hl_tail {k m : Nat} (hm : 0 < m) (hlt : m < N) : hlFromPages N (k * N + m) = k + 1 := by
  unfold hlFromPages
  have hN : 0 < N := by omega
  rw [Nat.mul_comm, Nat.mul_add_mod, Nat.mod_eq_of_lt hlt, if_pos (by omega), Nat.mul_add_div hN, Nat.div_eq_of_lt hlt]

theorem upd_none {α : Type} {f : Nat → Option α} {p : Nat} (h : f p = none) : upd f p none = f := by
  funext x
  by_cases hx : x = p
  · subst hx; rw [upd_same, h]
  · rw [upd_ne _ _ hx]

variable {s : HP} {ob : List Rng} {L : List Run} {ow : PSet} {u : Nat} {fg : Filler.Gh} {rg : HugeRegion.Gh} {runs : List X}

/-- Whole hugepages handed out. -/
theorem K.takeWhole {r : Rng} (k : K H N mode s ob L [] [r] [] ow u fg rg runs) (objs : Nat) :
    K H N mode s ob (⟨r.s * N, r.n * N, objs, false⟩ :: L) [] [] [] ow u fg rg
      ((⟨r.s * N, r.n * N, objs, false⟩, .whole r.s r.n) :: runs) := by
  have hpos := k.not_taken.1
  have e1 : ((⟨r.s * N, r.n * N, objs, false⟩, Kind.whole r.s r.n) :: runs).filterMap rawPart = r :: runs.filterMap rawPart := rfl
  have hdp : donors s ((⟨r.s * N, r.n * N, objs, false⟩, Kind.whole r.s r.n) :: runs) [] = donors s runs [] := rfl
  exact { k with
    perm := k.perm.cons _
    own := k.own.perm (by
      unfold owners
      rw [e1, List.perm_iff_count]
      intro a
      simp only [List.count_append, List.count_cons, List.count_nil]
      omega)
    flive := fun id => k.flive id
    rlive := fun id hid => k.rlive id hid
    valid := fun x hx => by
      rcases List.mem_cons.1 hx with h | h
      · subst h; exact ⟨hpos, rfl, rfl, rfl⟩
      · exact k.valid x h
    donNd := by rw [hdp]; exact k.donNd
    donOk := by rw [hdp]; exact k.donOk }

theorem K.rawGot {r : Rng} (k : K H N mode s ob L [] [r] [] ow u fg rg runs) (hN : 2 ≤ N) {n : Nat} (hn : 0 < n)
    (objs : Nat) (hr : r.n = hlFromPages N n) (fr : Bool) (g : List Rng) :
    ∃ s' res, HP.rawGot N mode s n objs false r fr g = some (s', res) ∧ res.got = g ∧ res.calls = [] ∧
      (∃ d, res.out = .run ⟨r.s * N, n, objs, d⟩ fr) ∧
      ∃ fg' runs', K H N mode s' ob (after L res.out) [] [] [] ow u fg' rg runs' := by
  obtain ⟨hl1, hl2⟩ := hl_spec (N := N) (by omega) n
  have hpos := hl_pos (N := N) (by omega) hn
  have hfirst : s.trk r.s = none := k.not_tracker (Or.inr (Or.inl (List.mem_singleton.2 rfl))) (by unfold Rng.Has; omega)
  have hlast : s.trk (r.s + r.n - 1) = none :=
    k.not_tracker (Or.inr (Or.inl (List.mem_singleton.2 rfl))) (by unfold Rng.Has; omega)
  unfold HP.rawGot
  simp only []
  rw [upd_none hfirst]
  by_cases hz : hlFromPages N n * N - n = 0
  · have hnn : hlFromPages N n * N = n := by omega
    rw [if_pos hz, hnn, upd_none hlast]
    have := k.takeWhole objs
    rw [hr, hnn] at this
    exact ⟨s, _, rfl, rfl, rfl, ⟨false, rfl⟩, fg, _, this⟩
  · rw [if_neg hz, if_pos (by omega)]
    have hsl : N - (hlFromPages N n * N - n) < N ∧ 0 < N - (hlFromPages N n * N - n) := by omega
    have hnm : n = (hlFromPages N n - 1) * N + (N - (hlFromPages N n * N - n)) := by
      have : hlFromPages N n * N = (hlFromPages N n - 1) * N + N := by
        rw [← Nat.succ_mul]; congr 1; omega
      omega
    generalize hm : N - (hlFromPages N n * N - n) = m at hsl hnm ⊢
    by_cases h1 : hlFromPages N n = 1
    · have hnm' : n = m := by rw [h1] at hnm; omega
      have hrl : r.s + r.n - 1 = r.s := by omega
      have k' : K H N mode s ob L [] (⟨r.s + r.n - 1, 1⟩ :: (rawPart (⟨r.s * N, n, objs, true⟩, .fill s.next ⟨0, m, objs⟩)).toList) []
          ow u fg rg runs := by
        have : [r] = ⟨r.s + r.n - 1, 1⟩ :: (rawPart (⟨r.s * N, n, objs, true⟩, .fill s.next ⟨0, m, objs⟩)).toList := by
          rw [hrl]
          have : r = ⟨r.s, 1⟩ := by
            have : r.n = 1 := by omega
            cases r; simp only at this; rw [this]
          rw [← this]; rfl
        rw [← this]; exact k
      obtain ⟨s', e, fg', h⟩ := k'.contribute (n := m) (objs := objs) (donated := true) (dense := false) (d := s.donated + 1) hN hsl.2
        (by omega) (fun _ => ⟨hsl.1, rfl⟩) (by simp) rfl (by simp [fpart]) (fun id hid => by simp [fpart, Ne.symm hid])
        (fun _ => rfl) (by simp [donor]) (fun s' hl => ⟨by simp only []; rw [hl, hrl]; rfl, hnm', rfl⟩)
      rw [e]
      exact ⟨s', _, rfl, rfl, rfl, ⟨true, rfl⟩, fg', _, h⟩
    · have hge : 2 ≤ hlFromPages N n := by omega
      generalize hq : hlFromPages N n - 1 = q at hnm
      have hrn : r.n = q + 1 := by omega
      have hrl : r.s + r.n - 1 = r.s + q := by omega
      have k' : K H N mode s ob L [] (⟨r.s + r.n - 1, 1⟩ :: (rawPart (⟨r.s * N, n, objs, true⟩, .tail r.s q s.next ⟨0, m, objs⟩)).toList) []
          ow u fg rg runs := by
        rw [hrl]
        have hr' : r = ⟨r.s, q + 1⟩ := by cases r; simp only at hrn; rw [hrn]
        refine { k with own := ?_ }
        have h0 := k.own.perm owners_cons
        rw [hr'] at h0
        have h1 := (Own.split (by omega) (by omega)).1 h0
        refine h1.perm ?_
        unfold owners
        rw [List.perm_iff_count]
        intro a
        simp only [rawPart, Option.toList_some, List.count_append, List.count_cons, List.count_nil]
        omega
      obtain ⟨s', e, fg', h⟩ := k'.contribute (n := m) (objs := objs) (donated := true) (dense := false) (d := s.donated + 1) hN hsl.2
        (by omega) (fun _ => ⟨hsl.1, rfl⟩) (by simp) rfl (by simp [fpart]) (fun id hid => by simp [fpart, Ne.symm hid])
        (fun _ => rfl) (by simp [donor])
        (fun s' hl => ⟨by omega, rfl, hsl.1, by rw [hl]; exact hrl, rfl, hnm, rfl, rfl⟩)
      rw [e]
      exact ⟨s', _, rfl, rfl, rfl, ⟨true, rfl⟩, fg', _, h⟩

/-- What `New` and `NewAligned` show for a request of `n` pages. -/
def NewOut (N n objs : Nat) (aligned : Bool) (o : Out) : Prop :=
  o = .fail ∨ o = .waiting ∨ ∃ p d fr, o = .run ⟨p, n, objs, d⟩ fr ∧ (aligned = true → p % N = 0)

theorem K.allocRaw (k : K H N mode s ob L [] [] [] ow u fg rg runs) (hN : 2 ≤ N) {n : Nat} (hn : 0 < n) (objs : Nat) (fr : Bool)
    {sys : Option Rng} (hs : SysOK ob (hlFromPages N n) sys) (a b : Nat) :
    ∃ s' res, HP.allocRaw N mode s n objs false fr sys a b = some (s', res) ∧ res.calls = [] ∧ NewOut N n objs true res.out ∧
      ∃ ow' u' fg' runs', K H N mode s' (res.got ++ ob) (after L res.out) [] [] [] ow' u' fg' rg runs' := by
  unfold HP.allocRaw
  rcases k.cacheGet (hl_pos (by omega) hn) fr hs a b with ⟨fr', asked, g, e, ow', u', h⟩ | ⟨c, r, fr', asked, g, e, hr, -, ow', u', h⟩
  · rw [e]
    exact ⟨s, _, rfl, rfl, Or.inl rfl, ow', u', fg, runs, h⟩
  · rw [e]
    obtain ⟨s', res, e', hg, hc, ⟨d, ho⟩, fg', runs', h'⟩ := h.rawGot hN hn objs hr fr' g
    simp only []
    rw [e']
    refine ⟨s', res, rfl, hc, Or.inr (Or.inr ⟨_, d, fr', ho, fun _ => Nat.mul_mod_left ..⟩), ow', u', fg', runs', ?_⟩
    rw [hg]; exact h'

theorem K.refillOp (k : K H N mode s ob L [] [] [] ow u fg rg runs) (n objs : Nat) (dense fr : Bool)
    {sys : Option Rng} (hs : SysOK ob 1 sys) (a b : Nat) (hn : 0 < n) (hle : n ≤ N) (hden : dense = true → n = 1) :
    ∃ s' res, HP.refill s n objs dense fr sys a b = some (s', res) ∧ res.calls = [] ∧ (res.out = .fail ∨ res.out = .waiting) ∧
      ∃ ow' u', K H N mode s' (res.got ++ ob) L [] [] [] ow' u' fg rg runs := by
  unfold HP.refill
  rcases k.cacheGet (n := 1) (by omega) fr hs a b with ⟨fr', asked, g, e, ow', u', h⟩ | ⟨c, r, fr', asked, g, e, hr, -, ow', u', h⟩
  · rw [e]
    exact ⟨s, _, rfl, rfl, Or.inl rfl, ow', u', h⟩
  · rw [e]
    refine ⟨_, _, rfl, rfl, Or.inr rfl, ow', u', ?_⟩
    · have hr' : r = ⟨r.s, 1⟩ := by cases r; simp only at hr; rw [hr]
      exact { h with
        own := h.own.perm (by
          show (owners { s with cache := c } (trackers { s with cache := c } [] fg) runs [r]).Perm
            (owners _ (trackers { s with cache := c } [] fg) runs [])
          unfold owners
          simp only [List.map_append, List.map_cons, List.map_nil]
          rw [← hr', List.perm_iff_count]
          intro a
          simp only [List.count_append, List.count_cons, List.count_nil]
          omega)
        nd := h.nd, freshF := h.freshF, trk := h.trk, taken := h.taken
        valid := fun x hx => by
          have := h.valid x hx
          obtain ⟨r, kd⟩ := x
          cases kd <;> exact this
        pend := h.pend, donNd := h.donNd, donOk := h.donOk, donated := h.donated, abandoned := h.abandoned, plain := h.plain
        refs := fun x hx => by
          rcases List.mem_append.1 hx with h' | h'
          · exact h.refs x h'
          · rw [List.mem_singleton] at h'; subst h'; exact ⟨hn, hle, hden⟩ }

theorem K.refillDone (k : K H N mode s ob L [] [] [] ow u fg rg runs) (hN : 2 ≤ N) {i : Nat} (hi : i < s.refills.length) :
    ∃ s' x fr, s.refills[i]? = some x ∧ HP.refillDone N mode s i = some (s', ⟨.run ⟨x.hp * N, x.n, x.objs, false⟩ fr, [], []⟩) ∧
      ∃ fg' runs', K H N mode s' ob (⟨x.hp * N, x.n, x.objs, false⟩ :: L) [] [] [] ow u fg' rg runs' := by
  have hx := List.getElem?_eq_getElem hi
  generalize s.refills[i] = x at hx
  have hxm : x ∈ s.refills := List.mem_of_getElem? hx
  obtain ⟨hn, hle, hden⟩ := k.refs x hxm
  have hsplit : s.refills = s.refills.take i ++ x :: s.refills.drop (i + 1) := by
    have h2 := List.getElem_cons_drop hi
    rw [List.getElem?_eq_getElem hi] at hx
    cases hx
    rw [h2, List.take_append_drop]
  have her : s.refills.eraseIdx i = s.refills.take i ++ s.refills.drop (i + 1) := List.eraseIdx_eq_take_drop_succ ..
  have k' : K H N mode { s with refills := s.refills.eraseIdx i } ob L []
      (⟨x.hp, 1⟩ :: (rawPart (⟨x.hp * N, x.n, x.objs, false⟩, .fill s.next ⟨0, x.n, x.objs⟩)).toList) [] ow u fg rg runs := {
    cache := k.cache, fill := k.fill, regs := k.regs, perm := k.perm, nd := k.nd, flight := k.flight, treat := k.treat
    freshF := k.freshF, freshR := k.freshR, trk := k.trk, taken := k.taken, flive := k.flive, rlive := k.rlive
    own := k.own.perm (by
      show (owners s (trackers s [] fg) runs []).Perm (owners _ (trackers s [] fg) runs _)
      unfold owners
      simp only [rawPart, Option.toList_none]
      rw [her]
      conv => lhs; rw [hsplit]
      rw [List.perm_iff_count]
      intro a
      simp only [List.map_append, List.map_cons, List.count_append, List.count_cons, List.count_nil]
      omega)
    valid := fun x hx => by
      have := k.valid x hx
      obtain ⟨r, kd⟩ := x
      cases kd <;> exact this
    pend := k.pend, donNd := k.donNd, donOk := k.donOk, donated := k.donated, abandoned := k.abandoned, plain := k.plain
    refs := fun y hy => k.refs y (List.mem_of_mem_eraseIdx hy) }
  obtain ⟨s', e, fg', h⟩ := k'.contribute (n := x.n) (objs := x.objs) (donated := false) (dense := x.dense) (d := s.donated) hN hn
    hle (by simp) hden rfl (by simp [fpart]) (fun id hid => by simp [fpart, Ne.symm hid])
    (fun _ => rfl) (by simp [donor]) (fun s' hl => ⟨by simp only []; rw [hl]; rfl, rfl, rfl⟩)
  refine ⟨s', x, x.fromReleased, hx, ?_, fg', _, h⟩
  unfold HP.refillDone
  rw [hx]
  simp only []
  have e' : HP.contribute N mode { s with refills := s.refills.eraseIdx i } x.hp x.n x.objs false x.dense = some s' := e
  rw [e']

theorem K.allocSmall (k : K H N mode s ob L [] [] [] ow u fg rg runs) (hN : 2 ≤ N) {n : Nat} (hn : 0 < n) (hle : n ≤ N / 2)
    (objs : Nat) {dense : Bool} (hden : dense = true → n = 1) {sys : Option Rng} (hs : SysOK ob (hlFromPages N n) sys) (a b : Nat) :
    ∃ s' res, HP.allocSmall N mode s n objs dense sys a b = some (s', res) ∧ res.calls = [] ∧ NewOut N n objs false res.out ∧
      Good H N mode s' ob (after L res.out) res := by
  have hlt : n < N := by omega
  have h1 : hlFromPages N n = 1 := by
    have := hl_tail (k := 0) hn hlt
    simpa using this
  rw [h1] at hs
  unfold HP.allocSmall
  rcases k.tryGet hN objs hn hlt hden with e | ⟨f, id, page, rel, e, fg', x, h⟩
  · rw [e]
    simp only []
    obtain ⟨s', res, e', hc, ho, ow', u', h⟩ := k.refillOp n objs dense false hs a b hn (by omega) hden
    have e2 : HP.refill { s with fill := s.fill } n objs dense false sys a b = some (s', res) := e'
    refine ⟨s', res, e2, hc, ho.imp id Or.inl, ow', u', fg, rg, runs, ?_, by rw [hc]; simp⟩
    have : after L res.out = L := by rcases ho with h | h <;> rw [h] <;> rfl
    rw [this]; exact h
  · rw [e]
    exact ⟨_, _, rfl, rfl, Or.inr (Or.inr ⟨page, false, rel, rfl, by simp⟩), ow, u, fg', rg, _, h, by simp⟩

theorem K.regionMust (k : K H N mode s ob L [] [] [] ow u fg rg runs) (hN : 0 < N) {n : Nat} (hn : 0 < n) (hle : n ≤ H * N) (objs : Nat)
    {id : Nat} (hid : id ∈ s.regs.ids) (hl : rg.live id = []) (g : List Rng) :
    ∃ s' page rel, HP.regionMust H N s n objs g = some (s', ⟨.run ⟨page, n, objs, false⟩ rel, [], g⟩) ∧
      ∃ rg' runs', K H N mode s' ob (⟨page, n, objs, false⟩ :: L) [] [] [] ow u fg rg' runs' := by
  unfold HP.regionMust
  rcases k.regionGet hN objs hn with ⟨-, h⟩ | ⟨rs, id', page, rel, e, rg', x, h⟩
  · exfalso
    refine h id hid ⟨0, by omega, ?_⟩
    intro j _ _
    rw [hl]; rfl
  · rw [e]
    exact ⟨_, page, rel, rfl, rg', _, h⟩

theorem K.largeNew (k : K H N mode s ob L [] [] [] ow u fg rg runs) (hN : 2 ≤ N) (hH : 0 < H) {n : Nat} (hn : 0 < n) (hle : n ≤ H * N)
    (objs : Nat) (useRegion fr : Bool) {sys1 sys2 : Option Rng} (hs1 : SysOK ob H sys1)
    (hs2 : SysOK ob (hlFromPages N n) sys2) (a b : Nat) :
    ∃ s' res, HP.largeNew H N mode s n objs false useRegion fr sys1 sys2 a b = some (s', res) ∧ res.calls = [] ∧
      NewOut N n objs false res.out ∧ Good H N mode s' ob (after L res.out) res := by
  have raw : ∃ s' res, HP.allocRaw N mode s n objs false fr sys2 a b = some (s', res) ∧ res.calls = [] ∧
      NewOut N n objs false res.out ∧ Good H N mode s' ob (after L res.out) res := by
    obtain ⟨s', res, e, hc, ho, ow', u', fg', runs', h⟩ := k.allocRaw hN hn objs fr hs2 a b
    refine ⟨s', res, e, hc, ?_, ow', u', fg', rg, runs', h, by rw [hc]; simp⟩
    rcases ho with h | h | ⟨p, d, f, h, -⟩
    · exact Or.inl h
    · exact Or.inr (Or.inl h)
    · exact Or.inr (Or.inr ⟨p, d, f, h, by simp⟩)
  unfold HP.largeNew
  cases useRegion with
  | false => rw [if_neg (by simp)]; exact raw
  | true =>
    rw [if_pos rfl]
    rcases k.addRegion (by omega) hH hs1 with e | ⟨s1, g, e, hmem, ow', u', rg', hl, h⟩
    · rw [e]; exact raw
    · rw [e]
      obtain ⟨s', page, rel, e', rg'', runs', h'⟩ := h.regionMust (by omega) hn hle objs hmem hl g
      exact ⟨s', _, e', rfl, Or.inr (Or.inr ⟨page, false, rel, rfl, by simp⟩), ow', u', fg, rg'', runs', h', by simp⟩

theorem K.largeRegion (k : K H N mode s ob L [] [] [] ow u fg rg runs) (hN : 2 ≤ N) (hH : 0 < H) {n : Nat} (hn : 0 < n) (hle : n ≤ H * N)
    (objs : Nat) (useRegion fr : Bool) {sys1 sys2 : Option Rng} (hs1 : SysOK ob H sys1)
    (hs2 : SysOK ob (hlFromPages N n) sys2) (a b : Nat) :
    ∃ s' res, HP.largeRegion H N mode s n objs false useRegion fr sys1 sys2 a b = some (s', res) ∧ res.calls = [] ∧
      NewOut N n objs false res.out ∧ Good H N mode s' ob (after L res.out) res := by
  unfold HP.largeRegion
  rcases k.regionGet (by omega) objs hn with ⟨e, -⟩ | ⟨rs, id', page, rel, e, rg', x, h⟩
  · rw [e]
    exact k.largeNew hN hH hn hle objs useRegion fr hs1 hs2 a b
  · rw [e]
    exact ⟨_, _, rfl, rfl, Or.inr (Or.inr ⟨page, false, rel, rfl, by simp⟩), ow, u, fg, rg', _, h, by simp⟩

theorem K.allocRaw' (k : K H N mode s ob L [] [] [] ow u fg rg runs) (hN : 2 ≤ N) {n : Nat} (hn : 0 < n) (objs : Nat) (fr : Bool)
    {sys : Option Rng} (hs : SysOK ob (hlFromPages N n) sys) (a b : Nat) (al : Bool) :
    ∃ s' res, HP.allocRaw N mode s n objs false fr sys a b = some (s', res) ∧ res.calls = [] ∧ NewOut N n objs al res.out ∧
      Good H N mode s' ob (after L res.out) res := by
  obtain ⟨s', res, e, hc, ho, ow', u', fg', runs', h⟩ := k.allocRaw hN hn objs fr hs a b
  refine ⟨s', res, e, hc, ?_, ow', u', fg', rg, runs', h, by rw [hc]; simp⟩
  rcases ho with h | h | ⟨p, d, f, h, h2⟩
  · exact Or.inl h
  · exact Or.inr (Or.inl h)
  · exact Or.inr (Or.inr ⟨p, d, f, h, fun _ => h2 rfl⟩)

theorem K.allocLarge (k : K H N mode s ob L [] [] [] ow u fg rg runs) (hN : 2 ≤ N) (hH : 0 < H) {n : Nat} (hn : 0 < n) (hle : n ≤ H * N)
    (objs : Nat) (useRegion fr : Bool) {sys1 sys2 : Option Rng} (hs1 : SysOK ob H sys1)
    (hs2 : SysOK ob (hlFromPages N n) sys2) (a b : Nat) :
    ∃ s' res, HP.allocLarge H N mode s n objs false useRegion fr sys1 sys2 a b = some (s', res) ∧ res.calls = [] ∧
      NewOut N n objs false res.out ∧ Good H N mode s' ob (after L res.out) res := by
  unfold HP.allocLarge
  by_cases h1 : hlFromPages N n * N = n
  · rw [if_pos h1]
    exact k.allocRaw' hN hn objs fr hs2 a b false
  · rw [if_neg h1]
    by_cases h2 : n < N
    · rw [if_pos h2]
      rcases k.tryGet hN objs hn h2 (dense := false) (by simp) with e | ⟨f, id, page, rel, e, fg', x, h⟩
      · rw [e]
        exact k.largeRegion hN hH hn hle objs useRegion false hs1 hs2 a b
      · rw [e]
        exact ⟨_, _, rfl, rfl, Or.inr (Or.inr ⟨page, false, rel, rfl, by simp⟩), ow, u, fg', rg, _, h, by simp⟩
    · rw [if_neg h2]
      exact k.largeRegion hN hH hn hle objs useRegion fr hs1 hs2 a b

theorem K.newOp (k : K H N mode s ob L [] [] [] ow u fg rg runs) (hN : 2 ≤ N) (hH : 0 < H) {n : Nat} (hn : 0 < n)
    (objs : Nat) {dense : Bool} (hden : dense = true → n = 1) (useRegion fr : Bool) {sys1 sys2 : Option Rng} (hs1 : SysOK ob H sys1)
    (hs2 : SysOK ob (hlFromPages N n) sys2) (a b : Nat) :
    ∃ s' res, HP.new H N mode s n objs dense useRegion fr sys1 sys2 a b = some (s', res) ∧ res.calls = [] ∧
      NewOut N n objs false res.out ∧ Good H N mode s' ob (after L res.out) res := by
  unfold HP.new
  rw [if_neg (by omega)]
  by_cases h1 : n ≤ N / 2
  · rw [if_pos h1]
    exact k.allocSmall hN hn h1 objs hden hs2 a b
  · rw [if_neg h1]
    have hd : dense = false := by
      cases dense with
      | false => rfl
      | true => have := hden rfl; omega
    subst hd
    by_cases h2 : n ≤ H * N
    · rw [if_pos h2]
      exact k.allocLarge hN hH hn h2 objs useRegion fr hs1 hs2 a b
    · rw [if_neg h2]
      exact k.allocRaw' hN hn objs fr hs2 a b false

theorem K.newAlignedOp (k : K H N mode s ob L [] [] [] ow u fg rg runs) (hN : 2 ≤ N) (hH : 0 < H) {n align : Nat} (hn : 0 < n)
    (hal : align ≤ N) (objs : Nat) {dense : Bool} (hden : dense = true → n = 1 ∧ align ≤ 1) (useRegion fr : Bool) {sys1 sys2 : Option Rng}
    (hs1 : SysOK ob H sys1) (hs2 : SysOK ob (hlFromPages N n) sys2) (a b : Nat) :
    ∃ s' res, HP.newAligned H N mode s n align objs dense useRegion fr sys1 sys2 a b = some (s', res) ∧ res.calls = [] ∧
      NewOut N n objs (decide (1 < align)) res.out ∧ Good H N mode s' ob (after L res.out) res := by
  unfold HP.newAligned
  by_cases h1 : align ≤ 1
  · rw [if_pos h1, decide_eq_false (by omega)]
    exact k.newOp hN hH hn objs (fun h => (hden h).1) useRegion fr hs1 hs2 a b
  · rw [if_neg h1, if_pos hal]
    have hd : dense = false := by
      cases dense with
      | false => rfl
      | true => have := (hden rfl).2; omega
    subst hd
    exact k.allocRaw' hN hn objs fr hs2 a b _

/-! ### Returning runs -/

/-- What an operation that hands nothing out and calls the kernel for nothing establishes. -/
def Done (H N : Nat) (mode : Bool) (ob : List Rng) (L : List Run) (q : Option (HP × Res)) : Prop :=
  ∃ s' res, q = some (s', res) ∧ res.calls = [] ∧ res.got = [] ∧ (∀ r b, res.out ≠ .run r b) ∧
    ∃ ow u fg rg runs, K H N mode s' ob L [] [] [] ow u fg rg runs

theorem K.giveBack' {r : Rng} (k : K H N mode s ob L [] [r] [] ow u fg rg runs) {e : HugeCache.Ev}
    (he : e = .releaseUnbacked r ∨ ∃ el ms, e = .release r el ms) : Done H N mode ob L (s.giveBack N e) := by
  obtain ⟨c, o, e1, ho, ow', u', h⟩ := k.giveBack he
  exact ⟨_, _, e1, rfl, rfl, ho, ow', u', fg, rg, runs, h⟩

theorem K.settle {ex : List Rng} {dn : List Nat} {id : Nat} (k : K H N mode s ob L [id] ex dn ow u fg rg runs) (hN : 2 ≤ N) :
    ∃ s1, s.settle id = some s1 ∧ s1.fill = s.fill ∧
      K H N mode { s1 with trk := upd s1.trk (s1.fill.tr id).loc none } ob L [] (⟨(s.fill.tr id).loc, 1⟩ :: ex) [] ow u fg rg runs := by
  have hT : trackers s [id] fg = id :: Filler.ids s.fill fg := rfl
  have hd := k.donated
  have ha := k.abandoned
  rw [hT, List.countP_cons] at hd
  rw [hT, List.map_cons, List.sum_cons] at ha
  unfold HP.settle subCount
  by_cases h1 : (s.info id).donated = true
  · rw [if_pos h1] at hd
    rw [if_pos h1, if_pos (by omega)]
    simp only []
    by_cases h2 : (s.info id).abandoned = true
    · have hab : ab (s.info id) = (s.info id).count := by unfold ab; rw [if_pos h2]
      rw [hab] at ha
      rw [if_pos h2, if_pos (by omega)]
      refine ⟨_, rfl, rfl, k.drop (d := s.donated - 1) (c := s.abandoned - (s.info id).count) hN ?_ ?_ ?_⟩
      · rw [if_pos h1]; omega
      · rw [hab]; omega
      · intro j hj; exact upd_ne _ _ hj
    · have hab : ab (s.info id) = 0 := by unfold ab; rw [if_neg h2]
      rw [if_neg h2]
      refine ⟨_, rfl, rfl, k.drop (d := s.donated - 1) (c := s.abandoned) (inf := s.info) hN ?_ ?_ ?_⟩
      · rw [if_pos h1]; omega
      · rw [hab]; omega
      · intro j hj; rfl
  · have h1' : (s.info id).donated = false := by simpa using h1
    obtain ⟨hc, hb⟩ := k.plain id (List.mem_cons_self ..) h1'
    have hab : ab (s.info id) = 0 := by unfold ab; rw [hb]; rfl
    rw [if_neg h1, if_pos hc]
    refine ⟨_, rfl, rfl, k.drop (d := s.donated) (c := s.abandoned) (inf := s.info) hN ?_ ?_ ?_⟩
    · rw [if_neg h1]; omega
    · rw [hab]; omega
    · intro j hj; rfl

/-- `ReleaseHugepage`, with ranges `ex` in hand. -/
theorem K.releaseHugepage {ex : List Rng} {dn : List Nat} {id : Nat} (k : K H N mode s ob L [id] ex dn ow u fg rg runs) (hN : 2 ≤ N)
    (hz : (s.fill.tr id).free.nused = 0) (el : Bool) (ms : Nat) :
    ∃ s' res, s.releaseHugepage N id el ms = some (s', res) ∧ res.calls = [] ∧ res.got = [] ∧ (∀ r b, res.out ≠ .run r b) ∧
      ∃ ow' u', K H N mode s' ob L [] ex [] ow' u' fg rg runs := by
  obtain ⟨s1, e, hf, h⟩ := k.settle hN
  unfold HP.releaseHugepage
  rw [if_pos hz, e]
  simp only []
  rw [← hf] at h
  split
  · obtain ⟨c, o, e1, ho, ow', u', h'⟩ := h.giveBack (e := .releaseUnbacked ⟨(s1.fill.tr id).loc, 1⟩) (Or.inl rfl)
    exact ⟨_, _, e1, rfl, rfl, ho, ow', u', h'⟩
  · obtain ⟨c, o, e1, ho, ow', u', h'⟩ := h.giveBack (e := .release ⟨(s1.fill.tr id).loc, 1⟩ el ms) (Or.inr ⟨el, ms, rfl⟩)
    exact ⟨_, _, e1, rfl, rfl, ho, ow', u', h'⟩

/-- What follows `filler_.Put` when the hugepage stays. -/
theorem K.afterKeep {x : PendPut} (k : K H N mode s ob L [] x.raw.toList x.donor.toList ow u fg rg runs)
    (hid : x.id ∈ Filler.ids s.fill fg) (hok : PendOk s x) (el : Bool) (ms : Nat) :
    Done H N mode ob L (s.afterPut N x.id none el ms x.k) := by
  obtain ⟨id, rest, kd⟩ := x
  cases kd with
  | a ma =>
    cases ma with
    | false => exact ⟨s, _, rfl, rfl, rfl, (by intro _ _ h; cases h), ow, u, fg, rg, runs, k⟩
    | true =>
      have hflag := k.donOk id (by unfold donors; simp [PendPut.donor])
      refine ⟨s.abandon id, ⟨.ret, [], []⟩, ?_, rfl, rfl, (by intro _ _ h; cases h), ow, u, fg, rg, runs, K.abandon k hid⟩
      simp only [HP.afterPut, HP.afterPutA, if_true]
      rw [if_pos hflag.1]
  | c hp hl =>
    unfold PendOk at hok
    simp only [] at hok
    have h' := K.abandon (id := id) k hid
    simp only [HP.afterPut, HP.afterPutC]
    unfold subCount
    rw [if_pos (by omega)]
    exact h'.giveBack' (Or.inr ⟨el, ms, rfl⟩)

/-- What follows `filler_.Put` when the hugepage is handed over. -/
theorem K.afterFree {x : PendPut} (k : K H N mode s ob L [x.id] x.raw.toList x.donor.toList ow u fg rg runs)
    (hN : 2 ≤ N) (hz : (s.fill.tr x.id).free.nused = 0) (hok : PendOk s x) (el : Bool) (ms : Nat) :
    Done H N mode ob L (s.afterPut N x.id (some x.id) el ms x.k) := by
  obtain ⟨id, rest, kd⟩ := x
  cases kd with
  | a ma =>
    obtain ⟨s', res, e, h1, h2, h3, ow', u', h⟩ := k.releaseHugepage hN hz el ms
    exact ⟨s', res, e, h1, h2, h3, ow', u', fg, rg, runs, h⟩
  | c hp hl =>
    unfold PendOk at hok
    simp only [] at hok k hz ⊢
    have hflag := k.donOk id (by unfold donors; simp [PendPut.donor])
    simp only [HP.afterPut, HP.afterPutC]
    rw [if_neg (by simp [hflag.2])]
    by_cases hrel : (s.fill.tr id).relCount > 0
    · rw [if_pos hrel]
      obtain ⟨s', res, e, h1, h2, h3, ow', u', h⟩ := k.releaseHugepage hN hz el ms
      rw [e]
      unfold subCount
      rw [if_pos (by omega)]
      exact h.giveBack' (Or.inr ⟨el, ms, rfl⟩)
    · rw [if_neg hrel]
      have hd := k.donated
      have hT : trackers s [id] fg = id :: Filler.ids s.fill fg := rfl
      rw [hT, List.countP_cons, if_pos hflag.1] at hd
      unfold subCount
      rw [if_pos (by omega)]
      have hab : ab (s.info id) = 0 := by unfold ab; rw [hflag.2]; rfl
      have h := k.drop (d := s.donated - 1) (c := s.abandoned) (inf := s.info) hN (by rw [if_pos hflag.1]; omega) (by rw [hab]; omega)
        (fun j _ => rfl)
      simp only []
      refine K.giveBack' (fg := fg) (rg := rg) (runs := runs) (ow := ow) (u := u) ?_ (Or.inr ⟨el, ms, rfl⟩)
      refine { h with own := ?_ }
      have h0 := h.own.perm owners_cons
      have h1 := h0.perm (List.Perm.cons _ (owners_cons (r := ⟨hp, hl - 1⟩) (ex := [])))
      have hloc : (s.fill.tr id).loc = hp + (hl - 1) := by omega
      have h2 := h1.perm (List.Perm.swap ..)
      rw [hloc] at h2
      have h3 := (Own.split (by omega) (by omega)).2 h2
      rw [show hl - 1 + 1 = hl by omega] at h3
      have h4 := h3.perm (owners_cons (r := ⟨hp, hl⟩) (ex := [])).symm
      exact h4

/-- `filler_.Put` for a run and what follows. -/
theorem K.putOp {x : X} {id : Nat} {a : Alloc} (k : K H N mode s ob (x.1 :: L) [] [] [] ow u fg rg (x :: runs)) (hN : 2 ≤ N)
    (hf : fpart id x = some a) (hf' : ∀ j, j ≠ id → fpart j x = none) (hrp : ∀ j, rpart j x = none)
    {pk : PK} (hpk : ∀ rest, PendPut.raw ⟨id, rest, pk⟩ = rawPart x ∧ PendPut.donor ⟨id, rest, pk⟩ = donor x ∧ PendOk s ⟨id, rest, pk⟩)
    (el : Bool) (ms : Nat) :
    Done H N mode ob L (HP.fillerPut N mode s id ((s.fill.tr id).loc * N + a.i) a.n a.objs pk el ms) := by
  obtain ⟨f, r, e, hloc, hid, fg', h⟩ := k.fillerPut hN hf hf' hrp hpk
  unfold HP.fillerPut
  rw [e]
  rcases h with ⟨rest, er, h⟩ | ⟨er, hmem, h⟩ | ⟨er, hz, h⟩
  · subst er
    exact ⟨_, _, rfl, rfl, rfl, (by intro _ _ h; cases h), ow, u, fg', rg, runs, h⟩
  · subst er
    obtain ⟨p1, p2, p3⟩ := hpk 0
    rw [← p1, ← p2] at h
    refine K.afterKeep (x := ⟨id, 0, pk⟩) h hmem ?_ el ms
    unfold PendOk at p3 ⊢
    simp only [hloc]; exact p3
  · subst er
    obtain ⟨p1, p2, p3⟩ := hpk 0
    rw [← p1, ← p2] at h
    refine K.afterFree (x := ⟨id, 0, pk⟩) h hN hz ?_ el ms
    unfold PendOk at p3 ⊢
    simp only [hloc]; exact p3

theorem K.putAnswerOp (k : K H N mode s ob L [] [] [] ow u fg rg runs) (hN : 2 ≤ N) {i : Nat} (hi : i < s.puts.length) (ok el : Bool)
    (ms : Nat) : Done H N mode ob L (s.putAnswer N mode i ok el ms) := by
  have hx := List.getElem?_eq_getElem hi
  generalize s.puts[i] = x at hx
  have hxm : x ∈ s.puts := List.mem_of_getElem? hx
  have hsplit : s.puts = s.puts.take i ++ x :: s.puts.drop (i + 1) := by
    have h2 := List.getElem_cons_drop hi
    rw [List.getElem?_eq_getElem hi] at hx
    cases hx
    rw [h2, List.take_append_drop]
  have her : s.puts.eraseIdx i = s.puts.take i ++ s.puts.drop (i + 1) := List.eraseIdx_eq_take_drop_succ ..
  obtain ⟨f, r, e, hloc, fg', h⟩ := k.fillerAnswer hN hsplit ok
  have hp := k.pend x hxm
  unfold HP.putAnswer
  rw [hx]
  simp only []
  rw [e, her]
  rcases h with ⟨er, hmem, h⟩ | ⟨er, hz, h⟩
  · subst er
    refine K.afterKeep h hmem ?_ el ms
    unfold PendOk at hp ⊢
    simp only [hloc]; exact hp
  · subst er
    refine K.afterFree h hN hz ?_ el ms
    unfold PendOk at hp ⊢
    simp only [hloc]; exact hp

end Verif.PageHeap
