import Verif.Heap.Steps2
/-! One step of the composed heap. -/
namespace Verif.Heap
open Verif.Span (Geo Mem IsObj InObj)
open Verif.PageHeap (HP Run)
open Verif.HugeAddressMap (Rng Cov)

variable {cfg : Cfg} {limit : Nat} {h h' : Heap}

def bigsOf (led : List (Owner × Run)) : List Run := led.filterMap fun x => match x.1 with | .big _ => some x.2 | _ => none

theorem bigs_eq (h : Heap) : h.bigs = bigsOf h.led := rfl

theorem bigsOf_retire (k : Nat) (freed : List Nat) (led : List (Owner × Run)) : bigsOf (led.map (retire k freed)) = bigsOf led := by
  unfold bigsOf
  rw [List.filterMap_map]
  congr 1
  funext x
  unfold retire
  by_cases hx : x.1 = .lent k ∧ x.2.p ∈ freed
  · simp only [Function.comp, hx, and_self, if_true]
  · simp only [Function.comp, hx, if_false]

theorem bigsOf_perm {a b : List (Owner × Run)} (h : a.Perm b) : (bigsOf a).Perm (bigsOf b) := h.filterMap _

theorem bigsOf_enrol {k : Nat} {run : Option Run} {led : List (Owner × Run)} (hrun : ∀ r, run = some r → (Owner.fresh k, r) ∈ led) :
    (bigsOf (enrol led k run)).Perm (bigsOf led) := by
  cases run with
  | none => exact .refl _
  | some r => exact (bigsOf_perm (List.perm_cons_erase (hrun r rfl))).symm

theorem onTier_eq {k : Nat} {e : TransferCache.Ev} {o : TransferCache.Out} (hs : h.onTier cfg k e = some (h', o)) :
    h'.cpu = h.cpu ∧ h'.led = h.led.map (retire k o.freed) ∧ h'.wait = h.wait := by
  unfold Heap.onTier at hs
  obtain ⟨⟨y, o'⟩, -, h2⟩ := Option.map_eq_some_iff.1 hs
  cases h2
  exact ⟨rfl, rfl, rfl⟩

theorem runs_cases (led : List (Owner × Run)) (who : Owner) (e : PageHeap.Ev) (out : PageHeap.Out) :
    (∃ r a b c, e = .delete r a b c ∧ oldRun e = [r] ∧ newRun e out = [] ∧ ledger led who e out = led.erase (who, r)) ∨
    (oldRun e = [] ∧ ledger led who e out = (newRun e out).map (fun r => (who, r)) ++ led) := by
  cases e with
  | delete r a b c => exact Or.inl ⟨r, a, b, c, rfl, rfl, rfl, rfl⟩
  | _ => right; cases out <;> exact ⟨rfl, rfl⟩

theorem bigsOf_new (l : List Run) (who : Owner) (led : List (Owner × Run)) :
    bigsOf (l.map (fun r => (who, r)) ++ led) = (if who.isBig then l else []) ++ bigsOf led := by
  unfold bigsOf
  rw [List.filterMap_append, List.filterMap_map]
  congr 1
  cases who <;> simp [Function.comp_def, Owner.isBig]

theorem live_perm (hu : h'.cpu.user = h.cpu.user) (hb : h'.bigs.Perm h.bigs) : (h'.live cfg).Perm (h.live cfg) := by
  unfold Heap.live
  rw [hu]
  exact (hb.map _).append_left _

/-- What users have and do not give up with the event stays theirs. -/
def Stays (cfg : Cfg) (e : Ev) (h h' : Heap) : Prop :=
  (∀ x ∈ h.cpu.user, objBlock cfg x ∉ e.freed cfg → x ∈ h'.cpu.user) ∧
  ∀ t r, (Owner.big t, r) ∈ h.led → runBlock cfg r ∉ e.freed cfg → (Owner.big t, r) ∈ h'.led

theorem Stays.of {e : Ev} (hu : h'.cpu.user = h.cpu.user) (hl : ∀ t r, (Owner.big t, r) ∈ h.led → (Owner.big t, r) ∈ h'.led) :
    Stays cfg e h h' := ⟨fun x hx _ => by rw [hu]; exact hx, fun t r hr _ => hl t r hr⟩

theorem Inv.main (I : Inv cfg limit [] h) (hc : cfg.OK limit) {e : Ev} (hp : Pre cfg h e) :
    (CheckOK cfg h e → ∃ h' o, Verif.Heap.step cfg h e = some (h', o)) ∧
    ∀ h' o, Verif.Heap.step cfg h e = some (h', o) →
      Inv cfg limit [] h' ∧ ((∀ w, e ≠ .write w) → Kept cfg h h') ∧ Stays cfg e h h' ∧
      (e.freed cfg ++ h'.live cfg).Perm (returned cfg e o ++ h.live cfg) := by
  cases e with
  | cpu e i hint =>
    obtain ⟨hp1, hp2, hp3⟩ := hp
    have key : ∀ c o, CpuCache.step cfg.cpu h.cpu e = some (c, o) →
        ∃ h', Verif.Heap.step cfg h (.cpu e i hint) = some (h', .cpu o) ∧ Inv cfg limit [] h' ∧ h'.mem = h.mem ∧ h'.cpu = c ∧ h'.led = h.led := by
      intro c o hs
      have I1 := I.cpuStep hc hp1 hp2 hs
      have other : o.leaves = [] → (∀ k l, o ≠ .toBacking k l) →
          ∃ h', Verif.Heap.step cfg h (.cpu e i hint) = some (h', .cpu o) ∧ Inv cfg limit [] h' ∧ h'.mem = h.mem ∧ h'.cpu = c ∧ h'.led = h.led := by
        intro h1 h2
        rw [h1] at I1
        refine ⟨{ h with cpu := c }, ?_, I1, rfl, rfl, rfl⟩
        simp only [Verif.Heap.step, hs, Option.bind_some]
        all_goals cases o <;> first | rfl | exact absurd rfl (h2 _ _)
      cases o with
      | toBacking k l =>
        obtain ⟨h0, h1⟩ := CpuCache.toBacking_len hs
        have hk : cfg.cpu.Used k := by
          have hx : ∃ o, o ∈ l := by cases l with | nil => exact absurd rfl h0 | cons a l => exact ⟨a, .head _⟩
          obtain ⟨o, ho⟩ := hx
          have h2 := I1.objs k o
          have h3 := I.objs k o
          have h4 : 0 < (CpuCache.Out.leaves (.toBacking k l)).count (k, o) := by
            show 0 < (CpuCache.pairs k l).count (k, o)
            rw [pairs_count, if_pos rfl]; exact List.count_pos_iff.2 ho
          simp only [List.count_nil, Nat.add_zero] at h3
          have h5 : (h.tier k).held.count o = (h.cpu.s.everything cfg.cpu.slab).count (k, o) := h3.symm
          change _ = (h.tier k).held.count o at h2
          exact (I.cpu.K hc.cpu).used (k, o) (List.count_pos_iff.1 (by omega))
        obtain ⟨h', o', h2, h3, h4, h5, h6⟩ := Inv.insert (k := k) (l := l) I1 hc hk (i := i) (hint := hint) (hp3 c k l hs) h0 h1
        refine ⟨h', ?_, h3, h4, h5, h6⟩
        simp only [Verif.Heap.step, hs, Option.bind_some, h2]
        rfl
      | _ => exact other rfl (fun _ _ h => (by cases h))
    constructor
    · intro hck
      obtain ⟨c, o, hs⟩ := CpuCache.step_defined hc.cpu h.cpu I.cpu e hp1 hck
      obtain ⟨h', h1, -⟩ := key c o hs
      exact ⟨h', _, h1⟩
    · intro h' o hst
      cases hs : CpuCache.step cfg.cpu h.cpu e with
      | none => simp only [Verif.Heap.step, hs] at hst; cases hst
      | some x =>
        obtain ⟨c, o'⟩ := x
        obtain ⟨h1, h2, h3, h4, h5, h6⟩ := key c o' hs
        rw [h2] at hst; cases hst
        have hu := CpuCache.user_exact h.cpu c e hp1 o' hs
        refine ⟨h3, fun _ => Kept.of_mem h4, ⟨fun x hx hn => ?_, fun t r hr _ => by rw [h6]; exact hr⟩, ?_⟩
        · rw [h5]
          rcases List.mem_append.1 (hu.mem_iff.2 (List.mem_append_right _ hx)) with hm | hm
          · exact absurd (List.mem_map_of_mem hm) hn
          · exact hm
        unfold Heap.live
        rw [bigs_eq, bigs_eq, h6, h5, ← List.append_assoc, ← List.append_assoc]
        refine List.Perm.append_right _ ?_
        have := hu.map (objBlock cfg)
        rw [List.map_append, List.map_append] at this
        exact this
  | ask th i hint hint0 =>
    obtain ⟨st, k, n, hth, ha, hw, hi⟩ := hp
    obtain ⟨hu, -, -⟩ := CpuCache.asks_ok hc.cpu I.cpu hth ha
    obtain ⟨h1, o, hs, hm, hcpu, hwait, hled, hcase⟩ := I.remove hc hu (hint := hint) (hint0 := hint0) hth ha hw hi
    have key : ∃ h' o', Verif.Heap.step cfg h (.ask th i hint hint0) = some (h', o') ∧ Inv cfg limit [] h' ∧ h'.mem = h.mem ∧
        h'.cpu.user = h.cpu.user ∧ h'.led = h.led ∧ (o' = .tau ∨ o' = .cpu .tau) := by
      rcases hcase with ⟨l, hgot, hl, I1⟩ | ⟨hgot, I1⟩
      · obtain ⟨c, h2, h3, h4⟩ := I1.deliver hc (th := th) (st := st) (by rw [hcpu]; exact hth) ha hl (by rw [hwait]; exact hw)
        refine ⟨{ h1 with cpu := c }, _, ?_, h3, hm, ?_, hled, Or.inr rfl⟩
        · simp only [Verif.Heap.step, hth, ha, Option.bind_some, hs, hgot]
          exact h2
        · rw [h4, hcpu]
      · refine ⟨_, _, ?_, I1, hm, by rw [hcpu], hled, Or.inl rfl⟩
        simp only [Verif.Heap.step, hth, ha, Option.bind_some, hs, hgot, hwait]
    obtain ⟨h2, o2, k1, k2, k3, k4, k5, k6⟩ := key
    refine ⟨fun _ => ⟨h2, o2, k1⟩, fun h' o' hst => ?_⟩
    rw [k1] at hst; cases hst
    refine ⟨k2, fun _ => Kept.of_mem k3, .of k4 (by rw [k5]; exact fun _ _ h => h), ?_⟩
    have : returned cfg (.ask th i hint hint0) o2 = [] := by rcases k6 with rfl | rfl <;> rfl
    rw [this]
    exact live_perm k4 (by rw [bigs_eq, bigs_eq, k5])
  | answer k j run =>
    obtain ⟨hu, hj, hrun⟩ := hp
    obtain ⟨h1, o, th, l, st, n, k1, k2, k3, k4, k5, k6, k7, k8, k9, k10, I1, K1⟩ := I.populate hc hu hj hrun
    obtain ⟨c, h2, h3, h4⟩ := I1.deliver hc (th := th) (st := st) (n := n) (by show h1.cpu.th[th]? = _; rw [k7]; exact k4) k5 k6
      (by show th ∉ upd h1.wait k ((h1.wait k).eraseIdx j) k; rw [upd_same, k8]; exact k10)
    have hst : Verif.Heap.step cfg h (.answer k j run) =
        some ({ h1 with cpu := c, wait := upd h1.wait k ((h1.wait k).eraseIdx j), led := enrol h1.led k run }, .cpu .tau) := by
      simp only [Verif.Heap.step, k1, k2, k3, Option.bind_some, Option.getD_some]
      exact h2
    refine ⟨fun _ => ⟨_, _, hst⟩, fun h' o' hst' => ?_⟩
    rw [hst] at hst'; cases hst'
    have hu' : c.user = h.cpu.user := h4.trans (by show h1.cpu.user = _; rw [k7])
    refine ⟨h3, fun _ => K1, .of hu' fun t r hr => ?_, ?_⟩
    · show _ ∈ enrol h1.led k run
      rw [k9]
      cases run with
      | none => exact hr
      | some r' => exact .tail _ ((List.mem_erase_of_ne (by simp)).2 hr)
    refine live_perm hu' ?_
    show (bigsOf (enrol h1.led k run)).Perm (bigsOf h.led)
    rw [k9]
    exact bigsOf_enrol hrun
  | tier k e =>
    obtain ⟨hu, hi, hp⟩ := hp
    obtain ⟨h1, o, h2, h3, h4, h5⟩ := I.inner hc hu hi hp
    have hst : Verif.Heap.step cfg h (.tier k e) = some (h1, .tau) := by simp only [Verif.Heap.step, h2]; rfl
    refine ⟨fun _ => ⟨_, _, hst⟩, fun h' o' hst' => ?_⟩
    rw [hst] at hst'; cases hst'
    refine ⟨h3, fun _ => h4, .of (by rw [h5]) fun t r hr => ?_, live_perm (by rw [h5]) ?_⟩
    · rw [(onTier_eq h2).2.1]
      exact List.mem_map.2 ⟨_, hr, by simp [retire]⟩
    rw [bigs_eq, bigs_eq, (onTier_eq h2).2.1, bigsOf_retire]
  | page t e who w =>
    obtain ⟨h1, s, r, h2, hs, h3, h4, h5, h6, -⟩ := I.pageStep hc hp
    refine ⟨fun _ => ⟨_, _, h2⟩, fun h' o' hst' => ?_⟩
    rw [h2] at hst'; cases hst'
    refine ⟨h3, fun _ => h4, ⟨fun x hx _ => by rw [h5]; exact hx, fun t' x hx hn => ?_⟩, ?_⟩
    · rw [h6]
      rcases runs_cases h.led who e r.out with ⟨y, a, b, c, g1, g2, g3, g4⟩ | ⟨g2, g4⟩
      · rw [g4]
        refine (List.mem_erase_of_ne ?_).2 hx
        intro he
        cases he
        refine hn ?_
        show _ ∈ (if (Owner.big t').isBig then (oldRun e).map (runBlock cfg) else [])
        rw [g2]; simp [Owner.isBig]
      · rw [g4]; exact List.mem_append_right _ hx
    have hb : (Ev.freed cfg (.page t e who w) ++ (bigsOf h1.led).map (runBlock cfg)).Perm
        (returned cfg (.page t e who w) (.page t r) ++ (bigsOf h.led).map (runBlock cfg)) := by
      show ((if who.isBig then (oldRun e).map (runBlock cfg) else []) ++ _).Perm
        ((if who.isBig then (newRun e r.out).map (runBlock cfg) else []) ++ _)
      rw [h6]
      rcases runs_cases h.led who e r.out with ⟨x, a, b, c, g1, g2, g3, g4⟩ | ⟨g2, g4⟩
      · rw [g4, g3, g2]
        have g6 := bigsOf_perm (List.perm_cons_erase (hp.2.2.1.2 x a b c g1).1)
        have g7 := bigsOf_new [x] who (h.led.erase (who, x))
        rw [List.map_singleton, List.singleton_append] at g7
        rw [g7] at g6
        have g8 := (g6.map (runBlock cfg)).symm
        rw [List.map_append] at g8
        cases hw : who.isBig
        · simpa [hw] using g8
        · simpa [hw] using g8
      · rw [g4, g2, bigsOf_new]
        cases hw : who.isBig
        · simp
        · simp
    unfold Heap.live
    rw [h5, bigs_eq, bigs_eq]
    rw [← List.append_assoc, ← List.append_assoc]
    refine (List.perm_append_comm.append_right _).trans ?_
    rw [List.append_assoc]
    refine (hb.append_left _).trans ?_
    rw [← List.append_assoc]
    exact List.perm_append_comm.append_right _
  | write w =>
    refine ⟨fun _ => ⟨_, _, rfl⟩, fun h' o' hst' => ?_⟩
    cases hst'
    exact ⟨I.write hc hp, fun hw => absurd rfl (hw w), .of rfl (fun _ _ h => h), .refl _⟩
  | kernel w =>
    refine ⟨fun _ => ⟨_, _, rfl⟩, fun h' o' hst' => ?_⟩
    cases hst'
    obtain ⟨h1, h2, -⟩ := I.kernel hc hp
    exact ⟨h1, fun _ => h2, .of rfl (fun _ _ h => h), .refl _⟩

theorem Reach.inv (hc : cfg.OK limit) (r : Reach cfg limit h) : Inv cfg limit [] h := by
  induction r with
  | init t more reg w hf hi ht =>
    exact
      { cpu := .init hf hi
        tier := fun k => .init w (t k) (ht k)
        page := fun t => .init _ _
        mem := fun _ => rfl
        objs := fun k o => by
          unfold CpuCache.W.init at hi
          obtain ⟨s, h1, h2⟩ := Option.map_eq_some_iff.1 hi
          subst h2
          show (s.everything cfg.cpu.slab).count (k, o) + 0 = 0
          rw [Slab.init_everything hf h1]; rfl
        led := fun _ => .refl _
        lent := fun _ => .refl _
        size := fun k r hm => by rcases hm with hm | hm <;> cases hm
        obs := fun _ _ _ _ hq => by obtain ⟨_, hm, -⟩ := hq; cases hm
        low := fun _ _ hm => by cases hm
        wait := fun _ => ⟨rfl, .nil⟩
        asks := fun k j th pd hq => by cases hq }
  | step e _ hp hs ih => exact (((ih).main hc hp).2 _ _ hs).1

end Verif.Heap
