import Verif.PageHeap.Inv3
/-! Delete, releases, treatments; the step of the page heap. -/
namespace Verif.PageHeap
open Verif.HugeAddressMap Verif.HugeAllocator
open Verif.PageTracker (Alloc PT)
open Verif.HugeRegion (hlFromPages)
open Verif.Filler (upd upd_same upd_ne)
open Verif.RangeTracker (subCount)

variable {H N : Nat} {mode : Bool}
variable {s : HP} {ob : List Rng} {L : List Run} {ow : PSet} {u : Nat} {fg : Filler.Gh} {rg : HugeRegion.Gh} {runs : List X}

theorem K.inFiller (k : K H N mode s ob L [] [] [] ow u fg rg runs) (hN : 2 ≤ N) {x : X} (hx : x ∈ runs) {id : Nat} {a : Alloc}
    (hf : fpart id x = some a) :
    a ∈ fg.live id ∧ id ∈ Filler.ids s.fill fg ∧ 0 < a.n ∧ a.i + a.n ≤ N ∧ s.trk (s.fill.tr id).loc = some id := by
  have ha : a ∈ fg.live id := (k.flive id).mem_iff.2 (List.mem_filterMap.2 ⟨x, hx, hf⟩)
  obtain ⟨h1, h2, h3⟩ := Filler.live_mem hN k.fill ha
  have hm : id ∈ Filler.ids s.fill fg := List.mem_append_left _ h1
  exact ⟨ha, hm, h2, h3, (k.trk _ _).2 ⟨hm, rfl⟩⟩

theorem K.inRegion (k : K H N mode s ob L [] [] [] ow u fg rg runs) (hN : 0 < N) {x : X} (hx : x ∈ runs) {id : Nat} {a : Nat × Nat}
    (hid : id ∈ s.regs.ids) (hf : rpart id x = some a) :
    a ∈ rg.live id ∧ 0 < a.2 ∧ a.1 + a.2 ≤ H * N := by
  have ha : a ∈ rg.live id := (k.rlive id hid).mem_iff.2 (List.mem_filterMap.2 ⟨x, hx, hf⟩)
  have := (HugeRegion.region_exact hN k.regs hid).1 a ha
  exact ⟨ha, this.1, this.2⟩

theorem K.region_taken (k : K H N mode s ob L [] [] [] ow u fg rg runs) {id : Nat} (hid : id ∈ s.regs.ids) :
    (⟨(s.regs.reg id).loc, H⟩ : Rng) ∈ s.cache.taken :=
  k.taken.mem_iff.2 (List.mem_map.2 ⟨id, hid, rfl⟩)

/-- Hugepages of whole runs are in no region. -/
theorem K.raw_no_region (k : K H N mode s ob L [] [] [] ow u fg rg runs) {r : Rng} (hr : r ∈ runs.filterMap rawPart) {p : Nat}
    (hp : r.Has p) {id : Nat} (hid : id ∈ s.regs.ids) : ¬ ((s.regs.reg id).loc ≤ p ∧ p < (s.regs.reg id).loc + H) := by
  intro hc
  have h0 := k.own.perm (l' := runs.filterMap rawPart ++ (trackers s [] fg |>.map (fun id => (⟨(s.fill.tr id).loc, 1⟩ : Rng))) ++ (s.refills.map (fun x => ⟨x.hp, 1⟩) ++
    (s.puts.filterMap PendPut.raw ++ ([] ++ s.cache.taken)))) (by
      unfold owners
      rw [List.perm_iff_count]
      intro a
      simp only [List.count_append]
      omega)
  rw [List.append_assoc] at h0
  exact h0.apart hr (b := ⟨(s.regs.reg id).loc, H⟩) (by simp [k.region_taken hid]) hp hc

theorem div_add {l N j : Nat} (hj : j < N) : (l * N + j) / N = l := by
  have hN : 0 < N := by omega
  rw [Nat.mul_comm, Nat.mul_add_div hN, Nat.div_eq_of_lt hj]; rfl

theorem regionCall_free (hN : 0 < N) {id : Nat} (hid : id ∈ s.regs.ids) {c : PageTracker.Call} (hc : c.i + c.n ≤ H)
    (hu : ∀ y, c.Has y → ∀ p, p / N = y → HugeRegion.usedBy (rg.live id) p = false) :
    CallFree H N s fg rg ⟨((s.regs.reg id).loc + c.i) * N, c.n * N, c.ok⟩ := by
  right
  refine ⟨id, hid, Nat.mul_le_mul_right _ (by omega), ?_, ?_⟩
  · rw [← Nat.add_mul]
    exact Nat.mul_le_mul_right _ (by omega)
  · intro j hj
    refine hu (j / N) ?_ j rfl
    unfold Call.Has at hj
    simp only [] at hj
    rw [Nat.add_mul] at hj
    have h1 : c.i * N ≤ j := by omega
    have h2 : j < (c.i + c.n) * N := by rw [Nat.add_mul]; omega
    exact ⟨(Nat.le_div_iff_mul_le hN).2 h1, (Nat.div_lt_iff_lt_mul hN).2 h2⟩

theorem K.deleteOp (k : K H N mode s ob L [] [] [] ow u fg rg runs) (hN : 2 ≤ N) {r : Run} (hr : r ∈ L) (el : Bool) (ms : Nat)
    (ok : Nat → Bool) :
    ∃ s' res, s.delete H N mode r el ms ok = some (s', res) ∧ res.got = [] ∧ (∀ r b, res.out ≠ .run r b) ∧
      Good H N mode s' ob (L.erase r) res := by
  obtain ⟨x, hx, hxr⟩ := List.mem_map.1 (k.perm.mem_iff.2 hr)
  obtain ⟨A, B, hAB⟩ := List.append_of_mem hx
  have hpm : runs.Perm (x :: (A ++ B)) := by
    rw [hAB]; exact List.perm_middle
  have kk := (k.reorder hpm (List.Perm.refl _) (List.Perm.refl _)).relive (List.perm_cons_erase hr)
  generalize hrs : A ++ B = rs at kk
  have hxm : x ∈ x :: rs := List.mem_cons_self ..
  have conv : Done H N mode ob (L.erase r) (s.delete H N mode r el ms ok) → ∃ s' res, s.delete H N mode r el ms ok = some (s', res) ∧ res.got = [] ∧ (∀ r b, res.out ≠ .run r b) ∧
      Good H N mode s' ob (L.erase r) res := by
    rintro ⟨s', res, e, h1, h2, h3, ow', u', fg', rg', runs', h⟩
    refine ⟨s', res, e, h2, h3, ow', u', fg', rg', runs', ?_, by rw [h1]; simp⟩
    rw [h2]; exact h
  obtain ⟨r', kd⟩ := x
  simp only [] at hxr
  subst hxr
  have hv := kk.valid _ hxm
  cases kd with
  | fill id a =>
    obtain ⟨hv1, hv2, hv3⟩ := hv
    obtain ⟨ha, hm, hpos, hin, htrk⟩ := kk.inFiller hN hxm (id := id) (a := a) (by simp [fpart])
    apply conv
    have e1 : r'.p / N = (s.fill.tr id).loc := by rw [hv1]; exact div_add (by omega)
    have e2 : (r'.p + r'.n - 1) / N = (s.fill.tr id).loc := by
      rw [show r'.p + r'.n - 1 = (s.fill.tr id).loc * N + (a.i + a.n - 1) by omega]
      exact div_add (by omega)
    unfold HP.delete
    rw [e1, htrk]
    simp only []
    rw [if_pos ⟨trivial, e2⟩, hv1, hv2, hv3]
    refine K.putOp (x := (r', .fill id a)) kk hN (by simp [fpart]) (fun j hj => by simp [fpart, Ne.symm hj]) (fun _ => rfl) ?_ el ms
    intro rest
    refine ⟨rfl, ?_, trivial⟩
    simp only [PendPut.donor, donor]
    cases r'.donated <;> rfl
  | region id i =>
    obtain ⟨hv1, hv2, hv3⟩ := hv
    obtain ⟨ha, hpos, hin⟩ := kk.inRegion (by omega) hxm (id := id) (a := (i, r'.n)) hv1 (by simp [rpart])
    simp only [] at hpos hin
    have hrange : (s.regs.reg id).loc ≤ r'.p / N ∧ r'.p / N < (s.regs.reg id).loc + H := by
      have h0 : 0 < N := by omega
      rw [hv2, Nat.mul_comm, Nat.mul_add_div h0]
      have : i / N < H := (Nat.div_lt_iff_lt_mul h0).2 (by omega)
      exact ⟨Nat.le_add_right _ _, Nat.add_lt_add_left this _⟩
    have htrk : s.trk (r'.p / N) = none := kk.not_tracker (Or.inr (Or.inr (kk.region_taken hv1))) hrange
    obtain ⟨rs', calls, e, -, rg', h, hs, hc⟩ := kk.regionPut (by omega) ok
    unfold HP.delete HP.deleteOther
    rw [htrk]
    simp only []
    rw [e]
    refine ⟨_, _, rfl, rfl, (by intro _ _ h; cases h), ow, u, fg, rg', rs, h, ?_⟩
    intro c hcm
    simp only [List.mem_map] at hcm
    obtain ⟨c0, hc0, rfl⟩ := hcm
    rw [← hs.2.1 id]
    exact regionCall_free (s := { s with regs := rs' }) (by omega) (hs.1.mem_iff.2 hv1) (hc c0 hc0).1 (hc c0 hc0).2
  | whole hp hl =>
    obtain ⟨hv1, hv2, hv3, hv4⟩ := hv
    apply conv
    have h0 : 0 < N := by omega
    have e1 : r'.p / N = hp := by rw [hv2, Nat.mul_div_cancel _ h0]
    have hraw : (⟨hp, hl⟩ : Rng) ∈ ((r', Kind.whole hp hl) :: rs).filterMap rawPart := List.mem_filterMap.2 ⟨_, hxm, rfl⟩
    have ht1 : s.trk hp = none := kk.not_tracker (Or.inl hraw) (by unfold Rng.Has; simp only []; omega)
    have ht2 : s.trk (hp + hl - 1) = none := kk.not_tracker (Or.inl hraw) (by unfold Rng.Has; simp only []; omega)
    have hoth : HugeRegion.S.maybePut H N s.regs r'.p r'.n ok = some (s.regs, none) := by
      refine HugeRegion.put_other h0 _ _ _ ?_
      intro id hid hc
      refine kk.raw_no_region hraw (p := hp) (by unfold Rng.Has; simp only []; omega) hid ?_
      rw [hv2] at hc
      exact ⟨Nat.le_of_mul_le_mul_right hc.1 h0, Nat.lt_of_mul_lt_mul_right hc.2⟩
    unfold HP.delete HP.deleteOther
    rw [e1, ht1]
    simp only []
    rw [hoth]
    simp only []
    unfold HP.deleteRaw
    rw [if_pos (by rw [hv3]; exact Nat.le_mul_of_pos_left _ hv1), hv3, hl_whole h0, e1]
    simp only [Nat.sub_self, if_true]
    rw [if_pos ht2]
    refine K.giveBack' (fg := fg) (rg := rg) (runs := rs) (ow := ow) (u := u) ?_ (Or.inr ⟨el, ms, rfl⟩)
    have hperm := kk.perm
    rw [List.map_cons] at hperm
    exact { kk with
      perm := hperm.cons_inv
      own := kk.own.perm (by
        show (owners s (trackers s [] fg) ((r', Kind.whole hp hl) :: rs) []).Perm (owners s (trackers s [] fg) rs [⟨hp, hl⟩])
        unfold owners
        rw [fm_cons]
        simp only [rawPart]
        rw [List.perm_iff_count]
        intro a
        simp only [Option.toList_some, List.count_append, List.count_cons, List.count_nil]
        omega)
      flive := fun id => kk.flive id
      rlive := fun id hid => kk.rlive id hid
      valid := fun y hy => by
        have := kk.valid y (List.mem_cons_of_mem _ hy)
        obtain ⟨r, kd⟩ := y
        cases kd <;> exact this
      donNd := kk.donNd
      donOk := kk.donOk }
  | tail hp hl id a =>
    obtain ⟨hv1, hv2, hv3, hv4, hv5, hv6, hv7, hv8⟩ := hv
    obtain ⟨ha, hm, hpos, hin, htrk⟩ := kk.inFiller hN hxm (id := id) (a := a) (by simp [fpart])
    apply conv
    have h0 : 0 < N := by omega
    have e1 : r'.p / N = hp := by rw [hv5, Nat.mul_div_cancel _ h0]
    have hraw : (⟨hp, hl⟩ : Rng) ∈ ((r', Kind.tail hp hl id a) :: rs).filterMap rawPart := List.mem_filterMap.2 ⟨_, hxm, rfl⟩
    have ht1 : s.trk hp = none := kk.not_tracker (Or.inl hraw) (by unfold Rng.Has; simp only []; omega)
    have hoth : HugeRegion.S.maybePut H N s.regs r'.p r'.n ok = some (s.regs, none) := by
      refine HugeRegion.put_other h0 _ _ _ ?_
      intro id hid hc
      refine kk.raw_no_region hraw (p := hp) (by unfold Rng.Has; simp only []; omega) hid ?_
      rw [hv5] at hc
      exact ⟨Nat.le_of_mul_le_mul_right hc.1 h0, Nat.lt_of_mul_lt_mul_right hc.2⟩
    have hhl : hlFromPages N r'.n = hl + 1 := by rw [hv6]; exact hl_tail hpos hv3
    have hmul : N ≤ hl * N := Nat.le_mul_of_pos_left _ hv1
    have hsl : (hl + 1) * N - r'.n = N - a.n := by rw [hv6, Nat.add_mul]; omega
    have hflag := kk.donOk id (by unfold donors; simp [donor])
    unfold HP.delete HP.deleteOther
    rw [e1, ht1]
    simp only []
    rw [hoth]
    simp only []
    unfold HP.deleteRaw
    rw [if_pos (by omega)]
    simp only []
    rw [hhl, e1, hsl, if_neg (by omega), show hp + (hl + 1) - 1 = (s.fill.tr id).loc by omega, htrk]
    simp only []
    rw [if_pos ⟨hflag.1, trivial⟩, show N - (N - a.n) = a.n by omega, hv7]
    have := K.putOp (x := (r', .tail hp hl id a)) (id := id) (a := a) (pk := .c hp (hl + 1)) kk hN (by simp [fpart]) (fun j hj => by simp [fpart, Ne.symm hj])
      (fun _ => rfl) (fun rest => ⟨rfl, rfl, ⟨by omega, by simp only []; omega⟩⟩) el ms
    rw [hv2, Nat.add_zero] at this
    exact this

/-! ### Releases and treatments -/

theorem fillerCall_free {x : Nat × PageTracker.Call} (h : Filler.CallOk N fg x) :
    CallFree H N s fg rg ⟨(s.fill.tr x.1).loc * N + x.2.i, x.2.n, x.2.ok⟩ := by
  left
  obtain ⟨h1, h2, h3, h4⟩ := h
  refine ⟨x.1, List.mem_append_left _ h1, Nat.le_add_right _ _, by simp only []; rw [Nat.add_mul]; omega, ?_⟩
  intro a ha j hj hc
  unfold Call.Has at hc
  simp only [] at hc
  exact h4 a ha j ⟨by omega, by omega⟩ hj

/-- A change of the filler that keeps its hugepages and runs. -/
theorem K.keepFill (k : K H N mode s ob L [] [] [] ow u fg rg runs) {f : Filler.F} {fg' : Filler.Gh}
    {treat' : Option (List Nat × List Nat)} (hr : Filler.Reach N mode f fg')
    (hids : (Filler.ids f fg').Perm (Filler.ids s.fill fg)) (hloc : ∀ x, (f.tr x).loc = (s.fill.tr x).loc)
    (hlive : fg'.live = fg.live) (hfl : fg'.flight = fg.flight) (htr : fg'.treat = treat') :
    K H N mode { s with fill := f, treat := treat' } ob L [] [] [] ow u fg' rg runs :=
  k.refill (puts' := s.puts) (lo' := []) (ex' := []) (dn' := []) hr hids hloc k.perm (List.Perm.refl _) (hfl.trans k.flight) htr
    (fun id => by rw [hlive]; exact k.flive id) (fun _ => List.Perm.refl _) k.valid k.pend (List.Perm.refl _)

theorem K.releaseFillerOp (k : K H N mode s ob L [] [] [] ow u fg rg runs) (hN : 2 ≤ N) (desired released : Nat) (x : RelArgs)
    {calls : List Call} (hc : ∀ c ∈ calls, CallFree H N s fg rg c) :
    ∃ s' res, HP.releaseFiller N mode s desired released x calls = some (s', res) ∧ res.got = [] ∧ (∃ n, res.out = .released n) ∧
      Good H N mode s' ob L res := by
  obtain ⟨f, log, e, hr, hok, -, -, -, hfreed, hfl, -⟩ := Filler.releasePages_exact hN k.fill desired x.adjusted x.skip x.okF
  unfold HP.releaseFiller
  rw [e]
  have hk : K H N mode { s with fill := f } ob L [] [] [] ow u fg rg runs :=
    k.keepFill (treat' := s.treat) hr (by unfold Filler.ids; rw [hfreed]) (fun x => (hfl x).2) rfl rfl k.treat
  refine ⟨_, _, rfl, rfl, ⟨_, rfl⟩, ow, u, fg, rg, runs, hk, ?_⟩
  intro c hcm
  have hids : Filler.ids f fg = Filler.ids s.fill fg := by unfold Filler.ids; rw [hfreed]
  rcases List.mem_append.1 hcm with h | h
  · rcases hc c h with ⟨id, h1, h2, h3, h4⟩ | h'
    · left
      refine ⟨id, ?_, ?_, ?_, ?_⟩
      · show id ∈ Filler.ids f fg
        rw [hids]; exact h1
      · show (f.tr id).loc * N ≤ c.p
        rw [(hfl id).2]; exact h2
      · show c.p + c.n ≤ ((f.tr id).loc + 1) * N
        rw [(hfl id).2]; exact h3
      · show ∀ a ∈ fg.live id, ∀ j, a.Has j → ¬ c.Has ((f.tr id).loc * N + j)
        rw [(hfl id).2]; exact h4
    · exact Or.inr h'
  · simp only [fillerCalls, List.mem_map] at h
    obtain ⟨y, hy, rfl⟩ := h
    rw [← (hfl y.1).2]
    exact fillerCall_free (s := { s with fill := f }) (hok y hy)

theorem K.releaseSubOp (k : K H N mode s ob L [] [] [] ow u fg rg runs) (hN : 2 ≤ N) (num released : Nat) (x : RelArgs)
    {calls : List Call} (hc : ∀ c ∈ calls, CallFree H N s fg rg c) :
    ∃ s' res, HP.releaseSub N mode s num released x calls = some (s', res) ∧ res.got = [] ∧ (∃ n, res.out = .released n) ∧
      Good H N mode s' ob L res := by
  unfold HP.releaseSub
  split
  · exact k.releaseFillerOp hN _ _ x hc
  · exact ⟨_, _, rfl, rfl, ⟨_, rfl⟩, ow, u, fg, rg, runs, k, hc⟩

theorem K.releaseRegions (k : K H N mode s ob L [] [] [] ow u fg rg runs) (hN : 0 < N) (desired : Nat) (adaptive hit : Bool) (frac : Nat)
    (ok : Nat → Nat → Bool) :
    ∃ rs n log, HugeRegion.S.releasePages H N s.regs desired adaptive hit frac ok = some (rs, n, log) ∧
      ∃ rg', K H N mode { s with regs := rs } ob L [] [] [] ow u fg rg' runs ∧
        ∀ c ∈ regionCalls N s log, CallFree H N { s with regs := rs } fg rg' c := by
  obtain ⟨rs, n, log, e, hr, hlog, -, -, -, -, -, hs⟩ := HugeRegion.releasePages_exact hN k.regs desired adaptive hit frac ok
  refine ⟨rs, n, log, e, _, k.reregs hr hs k.perm (List.Perm.refl _) (fun _ => List.Perm.refl _) k.rlive k.valid (List.Perm.refl _), ?_⟩
  intro c hc
  simp only [regionCalls, List.mem_map] at hc
  obtain ⟨y, hy, rfl⟩ := hc
  obtain ⟨h1, h2, h3, h4⟩ := hlog y hy
  rw [← hs.2.1 y.1]
  exact regionCall_free (s := { s with regs := rs }) hN (hs.1.mem_iff.2 h1) h3 (fun z hz => (h4 z hz).2)

theorem K.releaseRestOp (k : K H N mode s ob L [] [] [] ow u fg rg runs) (hN : 2 ≤ N) (num released : Nat) (x : RelArgs) :
    ∃ s' res, HP.releaseRest H N mode s num released x = some (s', res) ∧ res.got = [] ∧ (∃ n, res.out = .released n) ∧
      Good H N mode s' ob L res := by
  unfold HP.releaseRest
  split
  · obtain ⟨rs, n, log, e, rg', h, hc⟩ := k.releaseRegions (by omega) (num - released) x.adaptive false x.frac x.okR
    rw [e]
    exact h.releaseSubOp hN _ _ x hc
  · exact k.releaseSubOp hN _ _ x (by simp)

theorem K.breakRestOp (k : K H N mode s ob L [] [] [] ow u fg rg runs) (hN : 2 ≤ N) (num released : Nat) (x : RelArgs) :
    ∃ s' res, HP.breakRest H N mode s num released x = some (s', res) ∧ res.got = [] ∧ (∃ n, res.out = .released n) ∧
      Good H N mode s' ob L res := by
  unfold HP.breakRest
  obtain ⟨rs, n, log, e, rg', h, hc⟩ := k.releaseRegions (by omega) (num - released) x.adaptive true x.frac x.okR
  rw [e]
  simp only []
  split
  · exact ⟨_, _, rfl, rfl, ⟨_, rfl⟩, ow, u, fg, rg', runs, h, hc⟩
  · exact h.releaseFillerOp hN _ _ _ hc

theorem K.treatBeginOp (k : K H N mode s ob L [] [] [] ow u fg rg runs) (hN : 2 ≤ N) {A B : List Nat} (ht : s.treat = none)
    (hA : ∀ id ∈ A, OnList s id) (hB : ∀ id ∈ B, OnList s id) (hnd : B.Nodup) :
    Done H N mode ob L (s.treatBegin A B) := by
  have hheld : ∀ id, OnList s id → id ∈ fg.held := by
    rintro id ⟨kk, i, h⟩
    exact ((Filler.ownership hN k.fill).2.1 id).2 ((Filler.on_its_list hN k.fill kk i id).1 h).1
  obtain ⟨h1, h2, h3⟩ := Filler.treatBegin_shape hN k.fill (k.treat.trans ht) (fun id hid => hheld id (hA id hid))
    (fun id hid => hheld id (hB id hid)) hnd
  unfold HP.treatBegin
  rw [if_pos ht]
  refine ⟨_, _, rfl, rfl, rfl, (by intro _ _ h; cases h), ow, u, _, rg, runs,
    k.keepFill (treat' := some (A, B)) h1 ?_ h2 rfl rfl rfl⟩
  unfold Filler.ids
  rw [h3]

theorem K.treatEndOp (k : K H N mode s ob L [] [] [] ow u fg rg runs) (hN : 2 ≤ N) {A : List Nat} {obs : List Filler.Obs}
    (ht : s.treat = some (A, obs.map Filler.Obs.id)) (hub : ∀ o ∈ obs, Bitmap.WF N o.unbacked) (stale : Bool) (ok : Nat → Nat → Bool) :
    ∃ s' res, HP.treatEnd N mode s obs stale ok = some (s', res) ∧ res.got = [] ∧ res.out = .ret ∧ Good H N mode s' ob L res := by
  obtain ⟨f, log, ub, e, hr, hok, -, -, -, hfreed, hfl⟩ := Filler.treatEnd_exact hN k.fill (k.treat.trans ht) hub stale ok
  unfold HP.treatEnd
  rw [ht]
  simp only []
  rw [if_pos trivial, e]
  have hk := k.keepFill (treat' := none) hr (by unfold Filler.ids; rw [hfreed]) (fun x => (hfl x).2) rfl rfl rfl
  refine ⟨_, _, rfl, rfl, rfl, ow, u, _, rg, runs, hk, ?_⟩
  intro c hcm
  simp only [fillerCalls, List.mem_map] at hcm
  obtain ⟨y, hy, rfl⟩ := hcm
  rw [← (hfl y.1).2]
  exact fillerCall_free (s := { s with fill := f, treat := none }) (hok y hy)

theorem K.fetchOp (k : K H N mode s ob L [] [] [] ow u fg rg runs) (hN : 2 ≤ N) (ht : s.treat = none) (el : Bool) (ms : Nat) :
    Done H N mode ob L (s.fetch N el ms) := by
  obtain ⟨h1, h2, h3⟩ := Filler.fetch_shape hN k.fill (k.treat.trans ht)
  have hloc : ∀ x, ((Filler.fetchFreed s.fill).1.tr x).loc = (s.fill.tr x).loc := fun x => by rw [h2]
  unfold HP.fetch
  rcases h3 with ⟨e2, e1⟩ | ⟨id, e2, hids, hz⟩
  · have : Filler.fetchFreed s.fill = (s.fill, none) := Prod.ext e1 e2
    rw [this]
    exact ⟨_, _, rfl, rfl, rfl, (by intro _ _ h; cases h), ow, u, fg, rg, runs, k⟩
  · generalize hf : (Filler.fetchFreed s.fill).1 = f at h1 h2 hids hloc
    have : Filler.fetchFreed s.fill = (f, some id) := Prod.ext hf e2
    rw [this]
    simp only []
    have hk : K H N mode { s with fill := f } ob L [id] [] [] ow u fg rg runs :=
      k.refill (puts' := s.puts) (treat' := s.treat) (lo' := [id]) (ex' := []) (dn' := []) h1 hids.symm hloc k.perm (List.Perm.refl _)
        k.flight k.treat k.flive (fun _ => List.Perm.refl _) k.valid k.pend (List.Perm.refl _)
    obtain ⟨s', res, e, h1, h2, h3, ow', u', h⟩ := hk.releaseHugepage hN (by show (f.tr id).free.nused = 0; rw [‹f.tr = s.fill.tr›]; exact hz) el ms
    exact ⟨s', res, e, h1, h2, h3, ow', u', fg, rg, runs, h⟩

/-! ### The step -/

theorem Done.good {q : Option (HP × Res)} (h : Done H N mode ob L q) :
    ∃ s' res, q = some (s', res) ∧ res.got = [] ∧ (∀ r b, res.out ≠ .run r b) ∧ Good H N mode s' ob L res := by
  obtain ⟨s', res, e, h1, h2, h3, ow', u', fg', rg', runs', h⟩ := h
  refine ⟨s', res, e, h2, h3, ow', u', fg', rg', runs', ?_, by rw [h1]; simp⟩
  rw [h2]; exact h

theorem live_of_not_run {e : Ev} {o : Out} (h : ∀ r b, o ≠ .run r b) (hne : ∀ r el ms ok, e ≠ .delete r el ms ok) : live' L e o = L := by
  unfold live'
  split
  · rename_i r _ _ _; exact absurd rfl (hne r _ _ _)
  · exact absurd rfl (h _ _)
  · rfl

theorem live_after {e : Ev} {o : Out} (hne : ∀ r el ms ok, e ≠ .delete r el ms ok) : live' L e o = after L o := by
  cases e <;> cases o <;> first | rfl | exact absurd rfl (hne _ _ _ _)

theorem K.step (k : K H N mode s ob L [] [] [] ow u fg rg runs) (hN : 2 ≤ N) (hH : 0 < H) (e : Ev) (hp : e.Pre H N ob L s) :
    ∃ s' res, s.step H N mode e = some (s', res) ∧ Good H N mode s' ob (live' L e res.out) res := by
  have quiet : ∀ {q : Option (HP × Res)}, (∃ s' res, q = some (s', res) ∧ res.got = [] ∧ (∀ r b, res.out ≠ .run r b) ∧ Good H N mode s' ob L res) →
      (∀ r el ms ok, e ≠ .delete r el ms ok) → ∃ s' res, q = some (s', res) ∧ Good H N mode s' ob (live' L e res.out) res := by
    rintro q ⟨s', res, e1, -, h, g⟩ hne
    exact ⟨s', res, e1, by rw [live_of_not_run h hne]; exact g⟩
  have rel : ∀ {q : Option (HP × Res)}, (∃ s' res, q = some (s', res) ∧ res.got = [] ∧ (∃ n, res.out = .released n) ∧ Good H N mode s' ob L res) →
      (∃ s' res, q = some (s', res) ∧ res.got = [] ∧ (∀ r b, res.out ≠ .run r b) ∧ Good H N mode s' ob L res) := by
    rintro q ⟨s', res, e1, h0, ⟨n, hn⟩, g⟩
    exact ⟨s', res, e1, h0, (by rw [hn]; intro _ _ h; cases h), g⟩
  cases e with
  | new n objs dense ur fr s1 s2 a b =>
    obtain ⟨h1, h2, h3, h4⟩ := hp
    obtain ⟨s', res, e, -, -, h⟩ := k.newOp hN hH h1 objs h2 ur fr h3 h4 a b
    exact ⟨s', res, e, by rw [live_after (by intro _ _ _ _ h; cases h)]; exact h⟩
  | newAligned n al objs dense ur fr s1 s2 a b =>
    obtain ⟨h1, h2, h3, h4, h5⟩ := hp
    obtain ⟨s', res, e, -, -, h⟩ := k.newAlignedOp hN hH h1 h2 objs h3 ur fr h4 h5 a b
    exact ⟨s', res, e, by rw [live_after (by intro _ _ _ _ h; cases h)]; exact h⟩
  | refillDone i =>
    obtain ⟨s', x, fr, -, e, fg', runs', h⟩ := k.refillDone hN hp
    exact ⟨s', _, e, ow, u, fg', rg, runs', h, by simp⟩
  | delete r el ms ok =>
    obtain ⟨s', res, e, -, -, h⟩ := k.deleteOp hN hp el ms ok
    exact ⟨s', res, e, h⟩
  | putAnswer i ok el ms => exact quiet (k.putAnswerOp hN hp ok el ms).good (by intro _ _ _ _ h; cases h)
  | cacheAnswer i ok =>
    obtain ⟨c, o, e1, ho, ow', u', h⟩ := k.cacheOther (N := N) (e := .answer i ok) (Or.inr ⟨i, ok, rfl, hp⟩)
    exact quiet ⟨_, _, e1, rfl, ho, ow', u', fg, rg, runs, h, by simp⟩ (by intro _ _ _ _ h; cases h)
  | releaseCached num ms =>
    obtain ⟨c, o, e1, ho, ow', u', h⟩ := k.cacheOther (N := N) (e := .releaseCached (hlFromPages N num) ms) (Or.inl ⟨_, _, rfl⟩)
    exact quiet ⟨_, _, e1, rfl, ho, ow', u', fg, rg, runs, h, by simp⟩ (by intro _ _ _ _ h; cases h)
  | releaseRest num released x => exact quiet (rel (k.releaseRestOp hN num released x)) (by intro _ _ _ _ h; cases h)
  | breakRest num released x => exact quiet (rel (k.breakRestOp hN num released x)) (by intro _ _ _ _ h; cases h)
  | treatBegin A B =>
    obtain ⟨h1, h2, h3, h4⟩ := hp
    exact quiet (k.treatBeginOp hN h1 h2 h3 h4).good (by intro _ _ _ _ h; cases h)
  | treatEnd obs stale ok =>
    obtain ⟨⟨A, h1⟩, h2⟩ := hp
    obtain ⟨s', res, e, h3, h4, h5⟩ := k.treatEndOp hN h1 h2 stale ok
    exact quiet ⟨s', res, e, h3, (by rw [h4]; intro _ _ h; cases h), h5⟩ (by intro _ _ _ _ h; cases h)
  | fetch el ms => exact quiet (k.fetchOp hN hp el ms).good (by intro _ _ _ _ h; cases h)

theorem K.init (more : Bool) (reg : Nat → HugeRegion.R) :
    K H N mode (HP.init N more reg) [] [] [] [] [] (fun _ => False) 0 Filler.Gh.init HugeRegion.Gh.init [] := {
  cache := HugeCache.Reach.init
  fill := Filler.Reach.init
  regs := HugeRegion.Reach.init more reg
  perm := List.Perm.refl _
  own := ⟨List.Pairwise.nil, by simp [owners, trackers, Filler.ids, Filler.Gh.init, HP.init, Filler.F.init, HugeCache.S.init], fun p => by
    simp [owners, trackers, Filler.ids, Filler.Gh.init, HP.init, Filler.F.init, HugeCache.S.init, Cov]⟩
  nd := by simp [trackers, Filler.ids, Filler.Gh.init, HP.init, Filler.F.init]
  flight := rfl
  treat := rfl
  freshF := by simp [trackers, Filler.ids, Filler.Gh.init, HP.init, Filler.F.init]
  freshR := by simp [HP.init, HugeRegion.S.init]
  trk := fun p id => by simp [trackers, Filler.ids, Filler.Gh.init, HP.init, Filler.F.init]
  taken := List.Perm.refl _
  flive := fun id => List.Perm.refl _
  rlive := by simp [HP.init, HugeRegion.S.init]
  valid := by simp
  pend := by simp [HP.init]
  donNd := by simp [donors, HP.init]
  donOk := by simp [donors, HP.init]
  donated := rfl
  abandoned := rfl
  plain := by simp [trackers, Filler.ids, Filler.Gh.init, HP.init, Filler.F.init]
  refs := by simp [HP.init] }

theorem Reach.k (hN : 2 ≤ N) (hH : 0 < H) (h : Reach H N mode s ob L) :
    ∃ ow u fg rg runs, K H N mode s ob L [] [] [] ow u fg rg runs := by
  induction h with
  | init more reg => exact ⟨_, _, _, _, _, K.init more reg⟩
  | step e _ hp he ih =>
    obtain ⟨ow, u, fg, rg, runs, k⟩ := ih
    obtain ⟨s', res, e1, ow', u', fg', rg', runs', h, -⟩ := k.step hN hH e hp
    rw [he] at e1
    cases e1
    exact ⟨ow', u', fg', rg', runs', h⟩

end Verif.PageHeap
