import Verif.CentralFreeList.Lemmas3
/-! The loop of `RemoveRange`, `Populate`, and the invariant of all histories. -/
namespace Verif.CentralFreeList
open Verif.Span (Geo Mem IsObj InObj)
open Verif.HintedLists (HL)

theorem flatMap_congr' {L : List Nat} {f g : Nat → List Nat} (h : ∀ p ∈ L, f p = g p) :
    L.flatMap f = L.flatMap g := by
  induction L with
  | nil => rfl
  | cons x L ih =>
    rw [List.flatMap_cons, List.flatMap_cons, h x (by simp), ih fun p hp => h p (List.mem_cons_of_mem _ hp)]

theorem flatMap_upd {sp : List Nat} (hnd : sp.Nodup) {p : Nat} (hp : p ∈ sp) (live : Nat → List Nat)
    (out : List Nat) :
    (sp.flatMap (upd live p (out ++ live p))).Perm (out ++ sp.flatMap live) := by
  have h1 := List.perm_cons_erase hp
  refine (h1.flatMap_right _).trans ?_
  refine List.Perm.trans ?_ (List.Perm.append_left out (h1.flatMap_right _).symm)
  rw [List.flatMap_cons, List.flatMap_cons, upd_same, List.append_assoc]
  rw [flatMap_congr' (g := live) (fun q hq => upd_ne _ _ (hnd.mem_erase_iff.1 hq).1)]

theorem flatMap_filter (sp freed : List Nat) (live live' : Nat → List Nat) (B : List Nat)
    (h1 : ∀ p ∈ sp, p ∉ freed → live' p = (live p).filter fun o => decide (o ∉ B))
    (h2 : ∀ p ∈ sp, p ∈ freed → ∀ o ∈ live p, o ∈ B) :
    (sp.filter fun p => decide (p ∉ freed)).flatMap live' =
      (sp.flatMap live).filter fun o => decide (o ∉ B) := by
  induction sp with
  | nil => rfl
  | cons p sp ih =>
    have ih := ih (fun q hq => h1 q (List.mem_cons_of_mem _ hq)) (fun q hq => h2 q (List.mem_cons_of_mem _ hq))
    rw [List.flatMap_cons, List.filter_append, ← ih]
    by_cases hp : p ∈ freed
    · rw [List.filter_cons_of_neg (by simpa using hp)]
      have : (live p).filter (fun o => decide (o ∉ B)) = [] := by
        rw [List.filter_eq_nil_iff]
        intro o ho
        have := h2 p (by simp) hp o ho
        simpa using this
      rw [this, List.nil_append]
    · rw [List.filter_cons_of_pos (by simpa using hp), List.flatMap_cons, h1 p (by simp) hp]

/-! ### The loop of `RemoveRange` -/

/-- The first object taken comes from a span on the lowest list in use. -/
def FirstBest (k : Geo) (sp : List Nat) (live : Nat → List Nat) (new : List Nat) : Prop :=
  ∀ o, new.head? = some o → ∃ p ∈ sp, IsObj (spanAt k p) o ∧ (live p).length < k.count ∧
    ∀ q ∈ sp, (live q).length < k.count → ix k (live p).length ≤ ix k (live q).length

theorem removeLoop_spec {k : Geo} (hk : k.OK) : ∀ (fuel : Nat) (c : Cfl) (sp : List Nat)
    (live : Nat → List Nat) (got : List Nat) (want : Nat), K k c sp live → 0 < want → want ≤ fuel →
    ∃ c' r live' new, removeLoop k fuel c got want = some (c', r) ∧ K k c' sp live' ∧ Same c c' ∧ c'.w = c.w ∧
      (sp.flatMap live').Perm (new ++ sp.flatMap live) ∧ FirstBest k sp live new ∧
      (r = .full (got ++ new) ∧ new.length = want ∨
       ∃ want', r = .wait (got ++ new) want' ∧ 0 < want' ∧ new.length + want' = want ∧
        ∀ p ∈ sp, (live' p).length = k.count) := by
  intro fuel
  induction fuel with
  | zero => intro c sp live got want _ h1 h2; omega
  | succ fuel ih =>
    intro c sp live got want h hw hf
    rw [removeLoop]
    rcases HintedLists.least_exact h.lists.reach (n := 0) (by omega : 0 < 8) with
      ⟨i, p, L, s', e, _, hleast, hli, _⟩ | ⟨e, _, hnone⟩
    · have hmem : p ∈ c.hl.lists i := by rw [hli]; simp
      obtain ⟨hp, hfree, hi⟩ := (h.lists.on p i).1 hmem
      have hidx := h.lists.idx p hp hfree
      obtain ⟨f1, f2, f3, f4, f5, f6⟩ := h.facts hk hp
      have hcl := count_lt hk
      rw [show HintedLists.peekLeast kNumLists c.hl 0 = some (some (p, i)) from e]
      simp only [f3]
      rw [if_neg (by rw [hi, hidx]; simp only [ne_eq, not_true_eq_false, or_false]; omega)]
      obtain ⟨s1, out, e1, o1, o2, o3⟩ := Span.span_pop_exact _ (spanAt_ok hk p) _ _ _ (h.reach p hp) want
      have hcnt : (spanAt k p).count = k.count := rfl
      rw [hcnt] at o1
      have hr1 := Span.Reach.pop want (h.reach p hp) e1
      obtain ⟨_, _, a3, a4⟩ := Span.span_state_exact _ (spanAt_ok hk p) _ _ _ hr1
      rw [hcnt] at a4
      rw [List.length_append] at a3 a4
      rw [e1]
      simp only []
      rw [if_neg (by omega)]
      have hlenout : 0 < out.length := by omega
      obtain ⟨hist', e2, kh⟩ := h.hist.change h.nodup hp (n := (out ++ live p).length)
        { c with st := upd c.st p s1 } rfl f5 (by omega) (by rw [List.length_append]; omega)
        (by rw [List.length_append]; omega)
      have hlc : (live p).length + out.length = (out ++ live p).length := by
        rw [List.length_append]; omega
      rw [hlc, e2]
      simp only []
      have rest : ∀ hl' idx', KL k hl' idx' sp (fun q => (upd live p (out ++ live p) q).length) →
          K k { c with st := upd c.st p s1, hist := hist', hl := hl', idx := idx' } sp
            (upd live p (out ++ live p)) := by
        intro hl' idx' kl
        refine ⟨h.nodup, h.apart, ?_, ?_, kl, by rw [len_upd]; exact kh⟩
        · intro q hq
          show Span.Reach _ (upd c.st p s1 q) c.w (upd live p _ q)
          by_cases hqp : q = p
          · subst hqp; rw [upd_same, upd_same]; exact hr1
          · rw [upd_ne _ _ hqp, upd_ne _ _ hqp]; exact h.reach q hq
        · intro q hq
          by_cases hqp : q = p
          · subst hqp; rw [upd_same]; exact fun e => h.ne q hq (List.append_eq_nil_iff.1 e).2
          · rw [upd_ne _ _ hqp]; exact h.ne q hq
      have hlu := len_upd live p (out ++ live p)
      have hbest : ∀ more, FirstBest k sp live (out ++ more) := by
        intro more o ho
        have hoo : o ∈ out := by
          cases out with
          | nil => simp at hlenout
          | cons a out => simp only [List.cons_append, List.head?_cons, Option.some.injEq] at ho; simp [ho]
        refine ⟨p, hp, (o3 o hoo).1, hfree, ?_⟩
        intro q hq hqf
        apply Classical.byContradiction
        intro hlt
        have hq2 := (h.lists.on q (ix k (live q).length)).2 ⟨hq, hqf, rfl⟩
        rw [← hi] at hlt
        have := hleast.2.2.2 (ix k (live q).length) (by omega) (by omega)
        rw [this] at hq2
        simp at hq2
      have hperm : (sp.flatMap (upd live p (out ++ live p))).Perm (out ++ sp.flatMap live) :=
        flatMap_upd h.nodup hp live out
      have fin : ∀ c1, K k c1 sp (upd live p (out ++ live p)) → Same c c1 → c1.w = c.w →
          ∃ c' r live' new, (if want - out.length = 0 then some (c1, Rem.full (got ++ out))
              else removeLoop k fuel c1 (got ++ out) (want - out.length)) = some (c', r) ∧
            K k c' sp live' ∧ Same c c' ∧ c'.w = c.w ∧
            (sp.flatMap live').Perm (new ++ sp.flatMap live) ∧ FirstBest k sp live new ∧
            (r = .full (got ++ new) ∧ new.length = want ∨
             ∃ want', r = .wait (got ++ new) want' ∧ 0 < want' ∧ new.length + want' = want ∧
              ∀ p ∈ sp, (live' p).length = k.count) := by
        intro c1 k1 s1 w1
        by_cases hz : want - out.length = 0
        · rw [if_pos hz]
          refine ⟨c1, _, _, out, rfl, k1, s1, w1, hperm, ?_, Or.inl ⟨rfl, by omega⟩⟩
          have := hbest []
          rwa [List.append_nil] at this
        · rw [if_neg hz]
          obtain ⟨c', r, live', new, b1, b2, b3, b4, b5, b6, b7⟩ :=
            ih c1 sp (upd live p (out ++ live p)) (got ++ out) (want - out.length) k1 (by omega) (by omega)
          refine ⟨c', r, live', out ++ new, b1, b2, s1.trans b3, b4.trans w1, ?_, hbest new, ?_⟩
          · refine b5.trans ((List.Perm.append_left new hperm).trans ?_)
            rw [List.append_assoc]
            rw [List.perm_iff_count]; intro a; simp only [List.count_append]; omega
          · rw [← List.append_assoc, List.length_append]
            rcases b7 with ⟨b7, b8⟩ | ⟨want', b7, b8, b9, b10⟩
            · exact Or.inl ⟨b7, by omega⟩
            · exact Or.inr ⟨want', b7, b8, by omega, b10⟩
      by_cases hem : Span.freelistEmpty (spanAt k p) s1 = true
      · rw [if_pos hem]
        have hfull := a4.1 hem
        obtain ⟨hl', e3, kl⟩ := h.lists.remove hp hfree f5 (sp' := sp)
          (len' := fun q => (upd live p (out ++ live p) q).length) (fun _ _ => Iff.rfl)
          (fun q hq => by simp only [upd_ne _ _ hq])
          (fun _ => by rw [upd_same, List.length_append]; omega)
        rw [← hidx.trans hi.symm] at *
        rw [e3]
        exact fin _ (rest hl' c.idx kl) ⟨rfl, rfl, rfl, rfl, rfl⟩ rfl
      · rw [if_neg hem]
        have hnf : out.length + (live p).length ≠ k.count := fun e => hem (a4.2 e)
        have hnf' : (out ++ live p).length < k.count := by rw [List.length_append]; omega
        rw [indexFor_eq k (by rw [List.length_append]; omega)]
        simp only [Option.bind_some]
        rw [← hidx.trans hi.symm] at *
        by_cases hx : ix k (out ++ live p).length ≠ c.idx p
        · rw [if_pos hx]
          obtain ⟨hl', e3, kl⟩ := h.lists.move hp hfree f5 (n := (out ++ live p).length)
            (by rw [List.length_append]; omega) hnf' hx
          rw [e3]
          exact fin _ (rest hl' _ (by rw [hlu]; exact kl)) ⟨rfl, rfl, rfl, rfl, rfl⟩ rfl
        · rw [if_neg hx]
          have kl := h.lists.stay hp hfree hnf' (Classical.byContradiction hx)
          exact fin _ (rest c.hl c.idx (by rw [hlu]; exact kl)) ⟨rfl, rfl, rfl, rfl, rfl⟩ rfl
    · rw [show HintedLists.peekLeast kNumLists c.hl 0 = some none from e]
      refine ⟨c, _, live, [], rfl, h, Same.refl c, rfl, List.Perm.refl _, ?_, Or.inr ⟨want, ?_, hw, ?_, ?_⟩⟩
      · intro o ho; simp at ho
      · rw [List.append_nil]
      · simp
      · intro p hp
        have h6 := (h.facts hk hp).2.2.2.2.2
        apply Classical.byContradiction
        intro hne
        have := (h.lists.on p (ix k (live p).length)).2 ⟨hp, by omega, rfl⟩
        rw [hnone _ (Nat.zero_le _)] at this
        simp at this

/-! ### `Populate` -/

theorem numPages_pos {k : Geo} (hk : k.OK) : 0 < k.numPages := by
  have h1 := hk.fits
  have h2 := Nat.mul_pos hk.countPos hk.sizePos
  rcases Nat.eq_zero_or_pos k.numPages with h | h
  · rw [h, Nat.zero_mul] at h1; omega
  · exact h

theorem pend_perm {L : List Pend} {j : Nat} {pd : Pend} (h : L[j]? = some pd) :
    (L.flatMap Pend.got).Perm (pd.got ++ (L.eraseIdx j).flatMap Pend.got) := by
  induction L generalizing j with
  | nil => simp at h
  | cons x L ih =>
    cases j with
    | zero =>
      simp only [List.getElem?_cons_zero, Option.some.injEq] at h
      subst h
      rw [List.eraseIdx_cons_zero, List.flatMap_cons]
    | succ j =>
      rw [List.getElem?_cons_succ] at h
      rw [List.eraseIdx_cons_succ, List.flatMap_cons, List.flatMap_cons]
      refine (List.Perm.append_left _ (ih h)).trans ?_
      rw [List.perm_iff_count]; intro a; simp only [List.count_append]; omega

/-- The invariant of all histories. -/
structure Inv (k : Geo) (x : World) (live : Nat → List Nat) : Prop where
  perm : (x.sp.flatMap live).Perm (x.held ++ inHand x.c)
  map : ∀ a p, x.c.map a = some p ↔ p ∈ x.sp ∧ p ≤ a ∧ a < p + k.numPages
  pend : ∀ pd ∈ x.c.pend, 0 < pd.want ∧ pd.got.length + pd.want ≤ kMaxObjectsToMove
  multi : k.count ≠ 1 → K k x.c x.sp live ∧ x.c.counter + (x.held.length : Nat) = (x.sp.length * k.count : Nat) ∧
    x.c.requested = x.c.returned + x.sp.length
  single : k.count = 1 → x.sp.Nodup ∧ (∀ p ∈ x.sp, ∀ q ∈ x.sp, p ≠ q → Apart k p q) ∧
    (∀ p ∈ x.sp, live p = [(spanAt k p).start]) ∧ (∀ pd ∈ x.c.pend, pd.got = [])

theorem register_map {k : Geo} (hk : k.OK) {c : Cfl} {sp : List Nat} {p : Nat}
    (h : ∀ a q, c.map a = some q ↔ q ∈ sp ∧ q ≤ a ∧ a < q + k.numPages)
    (hap : ∀ q ∈ sp, Apart k p q) :
    ∀ a q, (register k c p).map a = some q ↔ q ∈ p :: sp ∧ q ≤ a ∧ a < q + k.numPages := by
  have hnp := numPages_pos hk
  intro a q
  show (if p ≤ a ∧ a < p + k.numPages then some p else c.map a) = some q ↔ _
  rw [List.mem_cons]
  by_cases ha : p ≤ a ∧ a < p + k.numPages
  · rw [if_pos ha]
    constructor
    · intro e; cases e; exact ⟨Or.inl rfl, ha⟩
    · rintro ⟨rfl | hq, h1, h2⟩
      · rfl
      · rcases hap q hq with h' | h' <;> omega
  · rw [if_neg ha, h]
    constructor
    · rintro ⟨h1, h2⟩; exact ⟨Or.inr h1, h2⟩
    · rintro ⟨rfl | hq, h1⟩
      · exact absurd h1 ha
      · exact ⟨hq, h1⟩

/-- A fresh span joins. -/
theorem populate_spec {k : Geo} (hk : k.OK) {x : World} {live : Nat → List Nat} (h : Inv k x live)
    {j : Nat} {span : Option Nat} (hj : j < x.c.pend.length)
    (hap : ∀ p, span = some p → ∀ q ∈ x.sp, Apart k p q) :
    ∃ c' r live' pd new, populate k x.c j span = some (c', r) ∧ x.c.pend[j]? = some pd ∧ r = pd.got ++ new ∧
      Inv k ⟨c', span.toList ++ x.sp, r ++ x.held⟩ live' ∧
      (span = none → new = []) ∧
      (∀ p, span = some p → new.length = min pd.want k.count ∧ ∀ o ∈ new, IsObj (spanAt k p) o) ∧
      (∀ a, (∀ p, span = some p → ∀ o, IsObj (spanAt k p) o → ¬ InObj (spanAt k p) o a) →
        c'.w a = x.c.w a) := by
  obtain ⟨pd, hpd⟩ : ∃ pd, x.c.pend[j]? = some pd := ⟨_, List.getElem?_eq_getElem hj⟩
  have hpp := pend_perm hpd
  have hpm : pd ∈ x.c.pend := List.mem_of_getElem? hpd
  have hwant := (h.pend pd hpm).1
  have hpend' : ∀ pd ∈ x.c.pend.eraseIdx j, 0 < pd.want ∧ pd.got.length + pd.want ≤ kMaxObjectsToMove :=
    fun q hq => h.pend q (List.mem_of_mem_eraseIdx hq)
  unfold populate
  rw [hpd]
  simp only []
  have hph := h.perm
  unfold inHand at hph
  cases span with
  | none =>
    refine ⟨_, _, live, pd, [], rfl, rfl, (List.append_nil _).symm, ?_, fun _ => rfl, by simp, fun _ _ => rfl⟩
    refine ⟨?_, h.map, hpend', ?_, ?_⟩
    · show (x.sp.flatMap live).Perm (pd.got ++ x.held ++ (x.c.pend.eraseIdx j).flatMap Pend.got)
      refine hph.trans ((List.Perm.append_left _ hpp).trans ?_)
      rw [List.perm_iff_count]; intro a; simp only [List.count_append]; omega
    · intro hc
      obtain ⟨a, b, d⟩ := h.multi hc
      refine ⟨⟨a.nodup, a.apart, a.reach, a.ne, a.lists, a.hist⟩, ?_, d⟩
      show x.c.counter - (pd.got.length : Nat) + ((pd.got ++ x.held).length : Nat) = _
      rw [List.length_append]
      show _ = ((x.sp.length * k.count : Nat) : Int)
      omega
    · intro hc
      obtain ⟨a, b, d, e⟩ := h.single hc
      exact ⟨a, b, d, fun q hq => e q (List.mem_of_mem_eraseIdx hq)⟩
  | some p =>
    have hap := hap p rfl
    have hnp := numPages_pos hk
    have hpn : p ∉ x.sp := by
      intro hm
      rcases hap p hm with h' | h' <;> omega
    simp only []
    have hmap := register_map hk (c := { x.c with pend := x.c.pend.eraseIdx j }) h.map hap
    have hlive0 : ∀ L, x.sp.flatMap (upd live p L) = x.sp.flatMap live := fun L =>
      flatMap_congr' fun q hq => upd_ne _ _ (fun e : q = p => hpn (e ▸ hq))
    have hapart : (∀ a ∈ x.sp, ∀ b ∈ x.sp, a ≠ b → Apart k a b) →
        ∀ a ∈ p :: x.sp, ∀ b ∈ p :: x.sp, a ≠ b → Apart k a b := by
      intro hh a ha b hb hab
      rcases List.mem_cons.1 ha with ha1 | ha1
      · rcases List.mem_cons.1 hb with hb1 | hb1
        · exact absurd (ha1.trans hb1.symm) hab
        · rw [ha1]; exact hap b hb1
      · rcases List.mem_cons.1 hb with hb1 | hb1
        · rw [hb1]; exact (hap a ha1).symm
        · exact hh a ha1 b hb1 hab
    by_cases hc : k.count = 1
    · rw [if_pos hc]
      obtain ⟨a, b, d, e⟩ := h.single hc
      have hg0 := e pd hpm
      refine ⟨_, _, upd live p [(spanAt k p).start], pd, [(spanAt k p).start], rfl, rfl, by rw [hg0]; rfl, ?_,
        by simp, ?_, fun _ _ => rfl⟩
      · refine ⟨?_, hmap, hpend', fun hne => absurd hc hne, fun _ => ⟨List.nodup_cons.2 ⟨hpn, a⟩, hapart b, ?_,
          fun q hq => e q (List.mem_of_mem_eraseIdx hq)⟩⟩
        · show ((p :: x.sp).flatMap _).Perm ([(spanAt k p).start] ++ x.held ++
            (x.c.pend.eraseIdx j).flatMap Pend.got)
          rw [List.flatMap_cons, upd_same, hlive0]
          rw [hg0, List.nil_append] at hpp
          rw [List.append_assoc]
          exact List.Perm.append_left _ (hph.trans (List.Perm.append_left _ hpp))
        · intro q hq
          rcases List.mem_cons.1 hq with rfl | hq
          · rw [upd_same]
          · rw [upd_ne _ _ (fun e : q = p => hpn (e ▸ hq))]; exact d q hq
      · intro q hq
        cases hq
        refine ⟨by simp only [List.length_singleton]; omega, ?_⟩
        intro o ho
        rw [List.mem_singleton.1 ho]
        exact ⟨0, by show 0 < k.count; omega, by simp⟩
    · rw [if_neg hc]
      obtain ⟨h1, h2, h3⟩ := h.multi hc
      obtain ⟨s', w', out, e1, o1, o2, o3⟩ := Span.span_build_exact _ (spanAt_ok hk p) (x.c.st p) x.c.w pd.want
      have hcnt : (spanAt k p).count = k.count := rfl
      rw [hcnt] at o1
      have hr1 := Span.Reach.build _ _ _ e1
      obtain ⟨_, _, a3, a4⟩ := Span.span_state_exact _ (spanAt_ok hk p) _ _ _ hr1
      have hcp := hk.countPos
      have hcl := count_lt hk
      have e1' : Span.build (spanAt k p) ((register k { x.c with pend := x.c.pend.eraseIdx j } p).st p)
          (register k { x.c with pend := x.c.pend.eraseIdx j } p).w pd.want = some (s', w', out) := e1
      rw [e1']
      simp only []
      rw [if_neg (by omega)]
      have hlenout : 0 < out.length := by omega
      obtain ⟨hist', e2, kh⟩ := h1.hist.add hpn
        { register k { x.c with pend := x.c.pend.eraseIdx j } p with
          st := upd (register k { x.c with pend := x.c.pend.eraseIdx j } p).st p s', w := w' }
        rfl hlenout (by omega)
      rw [e2]
      simp only []
      have hfr : ∀ a, (∀ o, IsObj (spanAt k p) o → ¬ InObj (spanAt k p) o a) → w' a = x.c.w a :=
        fun a ha => Span.build_frame (spanAt_ok hk p) e1 a ha
      have rest : ∀ hl' idx' cnt req c1, c1 = { register k { x.c with pend := x.c.pend.eraseIdx j } p with
            st := upd x.c.st p s', w := w', hist := hist', hl := hl', idx := idx', counter := cnt, requested := req } →
          KL k hl' idx' (p :: x.sp) (fun q => (upd live p out q).length) →
          cnt = x.c.counter + (k.count : Nat) - ((pd.got ++ out).length : Nat) → req = x.c.requested + 1 →
          Inv k ⟨c1, p :: x.sp, pd.got ++ out ++ x.held⟩ (upd live p out) := by
        intro hl' idx' cnt req c1 hc1 kl hcnt' hreq
        subst hc1
        refine ⟨?_, hmap, hpend', fun _ => ⟨⟨List.nodup_cons.2 ⟨hpn, h1.nodup⟩, hapart h1.apart, ?_, ?_, kl,
          by rw [len_upd]; exact kh⟩, ?_, ?_⟩, fun he => absurd he hc⟩
        · show ((p :: x.sp).flatMap _).Perm (pd.got ++ out ++ x.held ++
            (x.c.pend.eraseIdx j).flatMap Pend.got)
          rw [List.flatMap_cons, upd_same, hlive0]
          refine (List.Perm.append_left out (hph.trans (List.Perm.append_left _ hpp))).trans ?_
          rw [List.perm_iff_count]; intro a; simp only [List.count_append]; omega
        · intro q hq
          show Span.Reach _ (upd x.c.st p s' q) w' (upd live p out q)
          rcases List.mem_cons.1 hq with rfl | hq
          · rw [upd_same, upd_same]; exact hr1
          · have hqp : q ≠ p := fun e : q = p => hpn (e ▸ hq)
            rw [upd_ne _ _ hqp, upd_ne _ _ hqp]
            refine .write w' (h1.reach q hq) ?_
            intro o ho _ a ha
            apply hfr
            intro o' ho'
            exact apart_objs hk (hap q hq).symm ho ho' ha
        · intro q hq
          rcases List.mem_cons.1 hq with rfl | hq
          · rw [upd_same]; exact List.length_pos_iff.1 hlenout
          · rw [upd_ne _ _ (fun e : q = p => hpn (e ▸ hq))]; exact h1.ne q hq
        · show cnt + ((pd.got ++ out ++ x.held).length : Nat) = ((p :: x.sp).length * k.count : Nat)
          rw [List.length_append, List.length_cons, Nat.add_mul, Nat.one_mul, hcnt']
          omega
        · show req = x.c.returned + (p :: x.sp).length
          rw [List.length_cons]; omega
      have ans : ∀ p', some p = some p' → out.length = min pd.want k.count ∧
          ∀ o ∈ out, IsObj (spanAt k p') o := by
        intro p' e; cases e; exact ⟨o1, o3⟩
      have fr : ∀ a, (∀ p', some p = some p' → ∀ o, IsObj (spanAt k p') o → ¬ InObj (spanAt k p') o a) →
          w' a = x.c.w a := fun a ha => hfr a (ha p rfl)
      by_cases hfull : out.length = k.count
      · rw [if_pos hfull]
        refine ⟨_, _, upd live p out, pd, out, rfl, rfl, rfl, rest x.c.hl x.c.idx _ _ _ rfl ?_ rfl rfl, by simp,
          ans, fr⟩
        exact h1.lists.off (p := p) (fun hm => absurd hm hpn) (fun q hq => by simp [hq])
          (fun q hq => by simp only [upd_ne _ _ hq]) (fun _ => by rw [upd_same]; omega)
      · rw [if_neg hfull, indexFor_eq k hlenout]
        simp only [Option.bind_some]
        obtain ⟨hl', e3, kl⟩ := h1.lists.add (p := p) (n := out.length) (sp' := p :: x.sp)
          (fun hm => absurd hm hpn) hlenout (by omega) (fun q => List.mem_cons)
        rw [show (register k { x.c with pend := x.c.pend.eraseIdx j } p).hl = x.c.hl from rfl, e3]
        exact ⟨_, _, upd live p out, pd, out, rfl, rfl, rfl,
          rest hl' _ _ _ _ rfl (by rw [len_upd]; exact kl) rfl rfl, by simp, ans, fr⟩

end Verif.CentralFreeList
