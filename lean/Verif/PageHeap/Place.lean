import Verif.PageHeap.Inv4
/-! Where the pages of runs in use are; sums over runs. -/
namespace Verif.PageHeap
open Verif.HugeAddressMap Verif.HugeAllocator
open Verif.PageTracker (Alloc PT)
open Verif.HugeRegion (hlFromPages)

variable {H N : Nat} {mode : Bool}
variable {s : HP} {ob : List Rng} {L : List Run} {ow : PSet} {u : Nat} {fg : Filler.Gh} {rg : HugeRegion.Gh} {runs : List X}

/-- Page `p` of run `x`, seen from the part of the page heap it belongs to. -/
inductive At (H N : Nat) (s : HP) (x : X) (p : Nat) : Prop where
  | fill (id : Nat) (a : Alloc) (j : Nat) : fpart id x = some a → a.Has j → j < N → p = (s.fill.tr id).loc * N + j → At H N s x p
  | region (id i n j : Nat) : id ∈ s.regs.ids → rpart id x = some (i, n) → i ≤ j → j < i + n → j < H * N →
      p = (s.regs.reg id).loc * N + j → At H N s x p
  | raw (r : Rng) : rawPart x = some r → r.Has (p / N) → At H N s x p

theorem K.at (k : K H N mode s ob L [] [] [] ow u fg rg runs) (hN : 2 ≤ N) {x : X} (hx : x ∈ runs) {p : Nat} (hp : x.1.Has p) :
    At H N s x p := by
  have hv := k.valid x hx
  have h0 : 0 < N := by omega
  obtain ⟨r, kd⟩ := x
  obtain ⟨hp1, hp2⟩ := hp
  simp only [] at hp1 hp2
  cases kd with
  | fill id a =>
    obtain ⟨hv1, hv2, hv3⟩ := hv
    obtain ⟨ha, hm, hpos, hin, htrk⟩ := k.inFiller hN hx (id := id) (a := a) (by simp [fpart])
    exact .fill id a (p - (s.fill.tr id).loc * N) (by simp [fpart]) ⟨by omega, by omega⟩ (by omega) (by omega)
  | region id i =>
    obtain ⟨hv1, hv2, hv3⟩ := hv
    obtain ⟨ha, hpos, hin⟩ := k.inRegion h0 hx (id := id) (a := (i, r.n)) hv1 (by simp [rpart])
    simp only [] at hpos hin
    exact .region id i r.n (p - (s.regs.reg id).loc * N) hv1 (by simp [rpart]) (by omega) (by omega) (by omega) (by omega)
  | whole hp hl =>
    obtain ⟨hv1, hv2, hv3, hv4⟩ := hv
    have hmul : (hp + hl) * N = hp * N + hl * N := Nat.add_mul ..
    refine .raw ⟨hp, hl⟩ rfl ⟨(Nat.le_div_iff_mul_le h0).2 (by simp only []; omega), (Nat.div_lt_iff_lt_mul h0).2 ?_⟩
    show p < (hp + hl) * N
    omega
  | tail hp hl id a =>
    obtain ⟨hv1, hv2, hv3, hv4, hv5, hv6, hv7, hv8⟩ := hv
    have hmul : (hp + hl) * N = hp * N + hl * N := Nat.add_mul ..
    by_cases h : p < (hp + hl) * N
    · refine .raw ⟨hp, hl⟩ rfl ⟨(Nat.le_div_iff_mul_le h0).2 (by simp only []; omega), (Nat.div_lt_iff_lt_mul h0).2 h⟩
    · refine .fill id a (p - (s.fill.tr id).loc * N) (by simp [fpart]) ?_ ?_ ?_
      · rw [hv4]; exact ⟨by omega, by omega⟩
      · rw [hv4]; omega
      · rw [hv4]; omega

theorem At.inside {x : X} {p : Nat} (h : At H N s x p) (k : K H N mode s ob L [] [] [] ow u fg rg runs) (hN : 2 ≤ N) (hx : x ∈ runs) :
    ow (p / N) := by
  refine (k.own.cov (p / N)).2 ?_
  have h0 : 0 < N := by omega
  cases h with
  | fill id a j hf ha hj hp =>
    have hm := (k.inFiller hN hx hf).2.1
    refine ⟨⟨(s.fill.tr id).loc, 1⟩, ?_, ?_⟩
    · unfold owners
      exact List.mem_append_left _ (List.mem_map.2 ⟨id, hm, rfl⟩)
    · rw [hp, div_add hj]; exact ⟨Nat.le_refl _, Nat.lt_succ_self _⟩
  | region id i n j hid hr h1 h2 h3 hp =>
    refine ⟨⟨(s.regs.reg id).loc, H⟩, ?_, ?_⟩
    · unfold owners
      simp [k.region_taken hid]
    · rw [hp, Nat.mul_comm, Nat.mul_add_div h0]
      exact ⟨Nat.le_add_right _ _, Nat.add_lt_add_left ((Nat.div_lt_iff_lt_mul h0).2 h3) _⟩
  | raw r hr hp =>
    refine ⟨r, ?_, hp⟩
    unfold owners
    exact List.mem_append_right _ (List.mem_append_left _ (List.mem_filterMap.2 ⟨x, hx, hr⟩))

theorem K.tracker_unique (k : K H N mode s ob L [] [] [] ow u fg rg runs) {a b : Nat} (ha : a ∈ Filler.ids s.fill fg)
    (hb : b ∈ Filler.ids s.fill fg) (h : (s.fill.tr a).loc = (s.fill.tr b).loc) : a = b := by
  have h1 := (k.trk (s.fill.tr a).loc a).2 ⟨ha, rfl⟩
  have h2 := (k.trk (s.fill.tr a).loc b).2 ⟨hb, h.symm⟩
  rw [h1] at h2
  cases h2; rfl

theorem K.region_unique (k : K H N mode s ob L [] [] [] ow u fg rg runs) (hN : 0 < N) {a b p : Nat} (ha : a ∈ s.regs.ids)
    (hb : b ∈ s.regs.ids) (h1 : (s.regs.reg a).loc ≤ p ∧ p < (s.regs.reg a).loc + H)
    (h2 : (s.regs.reg b).loc ≤ p ∧ p < (s.regs.reg b).loc + H) : a = b := by
  apply Classical.byContradiction
  intro hab
  rcases (k.regs.ks hN).apart a ha b hb hab with h | h <;> omega

theorem K.region_no_tracker (k : K H N mode s ob L [] [] [] ow u fg rg runs) {a b : Nat} (ha : a ∈ s.regs.ids)
    (hb : b ∈ Filler.ids s.fill fg) : ¬ ((s.regs.reg a).loc ≤ (s.fill.tr b).loc ∧ (s.fill.tr b).loc < (s.regs.reg a).loc + H) := by
  intro hc
  have h1 := k.not_tracker (r := ⟨(s.regs.reg a).loc, H⟩) (Or.inr (Or.inr (k.region_taken ha))) hc
  rw [(k.trk _ _).2 ⟨hb, rfl⟩] at h1
  cases h1

theorem K.raw_no_tracker (k : K H N mode s ob L [] [] [] ow u fg rg runs) {r : Rng} (hr : r ∈ runs.filterMap rawPart) {b : Nat}
    (hb : b ∈ Filler.ids s.fill fg) : ¬ r.Has (s.fill.tr b).loc := by
  intro hc
  have h1 := k.not_tracker (Or.inl hr) hc
  rw [(k.trk _ _).2 ⟨hb, rfl⟩] at h1
  cases h1

theorem reg_div (hN : 0 < N) {l j : Nat} (hj : j < H * N) : l ≤ (l * N + j) / N ∧ (l * N + j) / N < l + H := by
  rw [Nat.mul_comm, Nat.mul_add_div hN]
  exact ⟨Nat.le_add_right _ _, Nat.add_lt_add_left ((Nat.div_lt_iff_lt_mul hN).2 hj) _⟩

theorem div_eq {l l' N j j' : Nat} (hj : j < N) (hj' : j' < N) (h : l * N + j = l' * N + j') : l = l' ∧ j = j' := by
  have h1 := div_add (l := l) hj
  have h2 := div_add (l := l') hj'
  rw [h, h2] at h1
  subst h1
  exact ⟨rfl, by omega⟩

/-- Two different runs share no page. -/
theorem K.apart (k : K H N mode s ob L [] [] [] ow u fg rg runs) (hN : 2 ≤ N) {x y : X} (hxy : [x, y].Sublist runs) {p : Nat}
    (hx : x.1.Has p) (hy : y.1.Has p) : False := by
  have hxm : x ∈ runs := hxy.subset (by simp)
  have hym : y ∈ runs := hxy.subset (by simp)
  have h0 : 0 < N := by omega
  cases k.at hN hxm hx with
  | fill id a j hf ha hj hp =>
    have hid := (k.inFiller hN hxm hf).2.1
    cases k.at hN hym hy with
    | fill id' a' j' hf' ha' hj' hp' =>
      have hid' := (k.inFiller hN hym hf').2.1
      obtain ⟨e1, e2⟩ := div_eq hj hj' (hp.symm.trans hp')
      have := k.tracker_unique hid hid' e1
      subst this; subst e2
      have hs : [a, a'].Sublist (runs.filterMap (fpart id)) := by
        have := hxy.filterMap (fpart id)
        simpa [List.filterMap_cons, hf, hf'] using this
      have hpw : (runs.filterMap (fpart id)).Pairwise (fun a b => ∀ j, a.Has j → ¬ b.Has j) :=
        (k.flive id).pairwise (Filler.live_disjoint hN k.fill id) (fun {a b} h j h1 h2 => h j h2 h1)
      have := hpw.sublist hs
      simp only [List.pairwise_cons, List.mem_singleton, forall_eq] at this
      exact this.1 j ha ha'
    | region id' i n j' hid' hr h1 h2 h3 hp' =>
      refine k.region_no_tracker hid' hid ?_
      have := reg_div (H := H) (l := (s.regs.reg id').loc) h0 h3
      rw [← hp', hp, div_add hj] at this
      exact this
    | raw r hr hp' =>
      refine k.raw_no_tracker (List.mem_filterMap.2 ⟨y, hym, hr⟩) hid ?_
      rw [hp, div_add hj] at hp'; exact hp'
  | region id i n j hid hr h1 h2 h3 hp =>
    have hd := reg_div (H := H) (l := (s.regs.reg id).loc) h0 h3
    rw [← hp] at hd
    cases k.at hN hym hy with
    | fill id' a' j' hf' ha' hj' hp' =>
      have hid' := (k.inFiller hN hym hf').2.1
      refine k.region_no_tracker hid hid' ?_
      rw [hp', div_add hj'] at hd; exact hd
    | region id' i' n' j' hid' hr' h1' h2' h3' hp' =>
      have hd' := reg_div (H := H) (l := (s.regs.reg id').loc) h0 h3'
      rw [← hp'] at hd'
      have := k.region_unique h0 hid hid' hd hd'
      subst this
      have hj : j = j' := by omega
      subst hj
      have hs : [(i, n), (i', n')].Sublist (runs.filterMap (rpart id)) := by
        have := hxy.filterMap (rpart id)
        simpa [List.filterMap_cons, hr, hr'] using this
      have hpw : (runs.filterMap (rpart id)).Pairwise RangeTracker.Disjoint :=
        (k.rlive id hid).pairwise (HugeRegion.region_exact h0 k.regs hid).2.1 (fun {a b} h j hj => h j ⟨hj.2, hj.1⟩)
      have := hpw.sublist hs
      simp only [List.pairwise_cons, List.mem_singleton, forall_eq] at this
      exact this.1 j ⟨⟨h1, h2⟩, ⟨h1', h2'⟩⟩
    | raw r hr' hp' => exact k.raw_no_region (List.mem_filterMap.2 ⟨y, hym, hr'⟩) hp' hid hd
  | raw r hr hp =>
    cases k.at hN hym hy with
    | fill id' a' j' hf' ha' hj' hp' =>
      have hid' := (k.inFiller hN hym hf').2.1
      refine k.raw_no_tracker (List.mem_filterMap.2 ⟨x, hxm, hr⟩) hid' ?_
      rw [hp', div_add hj'] at hp; exact hp
    | region id' i' n' j' hid' hr' h1' h2' h3' hp' =>
      have hd' := reg_div (H := H) (l := (s.regs.reg id').loc) h0 h3'
      rw [← hp'] at hd'
      exact k.raw_no_region (List.mem_filterMap.2 ⟨x, hxm, hr⟩) hp hid' hd'
    | raw r' hr' hp' =>
      have hs : [r, r'].Sublist (runs.filterMap rawPart) := by
        have := hxy.filterMap rawPart
        simpa [List.filterMap_cons, hr, hr'] using this
      have hd := k.own.disj
      unfold owners at hd
      have := hd.sublist (hs.trans ((List.sublist_append_left ..).trans (List.sublist_append_right ..)))
      simp only [List.pairwise_cons, List.mem_singleton, forall_eq] at this
      exact this.1 _ hp hp'

end Verif.PageHeap
