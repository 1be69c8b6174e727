import Verif.CentralFreeList.Lemmas
/-! One call of `ReleaseToSpans`, and one turn of the loop of `RemoveRange`. -/
namespace Verif.CentralFreeList
open Verif.Span (Geo Mem IsObj InObj)
open Verif.HintedLists (HL)

theorem spanAt_ok {k : Geo} (hk : k.OK) (p : Nat) : (spanAt k p).OK :=
  ⟨hk.shiftLo, hk.shiftHi, hk.pages, hk.cacheHi, hk.sizePos, hk.size8, hk.countPos, hk.fits, hk.listOne,
    hk.bitmapFits⟩

theorem obj_range {k : Geo} (hk : k.OK) {p o : Nat} (h : IsObj (spanAt k p) o) :
    p * k.pageSize ≤ o ∧ o + k.size ≤ (p + k.numPages) * k.pageSize := by
  obtain ⟨j, hj, rfl⟩ := h
  have h1 : (spanAt k p).start = p * k.pageSize := rfl
  have h2 : (spanAt k p).size = k.size := rfl
  have h3 : (spanAt k p).count = k.count := rfl
  rw [h1, h2]
  rw [h3] at hj
  have h4 := hk.fits
  have h5 := Nat.mul_le_mul_right k.size (show j + 1 ≤ k.count from hj)
  rw [Nat.add_mul, Nat.one_mul] at h5
  rw [Nat.add_mul]
  omega

theorem apart_objs {k : Geo} (hk : k.OK) {p q o o' a : Nat} (h : Apart k p q)
    (ho : IsObj (spanAt k p) o) (ho' : IsObj (spanAt k q) o') (ha : InObj (spanAt k p) o a) :
    ¬ InObj (spanAt k q) o' a := by
  intro hb
  have h1 := obj_range hk ho
  have h2 := obj_range hk ho'
  have e1 : (spanAt k p).size = k.size := rfl
  have e2 : (spanAt k q).size = k.size := rfl
  unfold InObj at ha hb
  rw [e1] at ha
  rw [e2] at hb
  unfold Apart at h
  rcases h with h | h
  · have := Nat.mul_le_mul_right k.pageSize h; omega
  · have := Nat.mul_le_mul_right k.pageSize h; omega

/-- What the lock protects, in terms of the objects of each span that are out. -/
structure K (k : Geo) (c : Cfl) (sp : List Nat) (live : Nat → List Nat) : Prop where
  nodup : sp.Nodup
  apart : ∀ p ∈ sp, ∀ q ∈ sp, p ≠ q → Apart k p q
  reach : ∀ p ∈ sp, Span.Reach (spanAt k p) (c.st p) c.w (live p)
  ne : ∀ p ∈ sp, live p ≠ []
  lists : KL k c.hl c.idx sp (fun p => (live p).length)
  hist : KH c.hist sp (fun p => (live p).length)

/-- The fields a locked loop leaves alone. -/
structure Same (c c' : Cfl) : Prop where
  counter : c'.counter = c.counter
  requested : c'.requested = c.requested
  returned : c'.returned = c.returned
  map : c'.map = c.map
  pend : c'.pend = c.pend

theorem Same.refl (c : Cfl) : Same c c := ⟨rfl, rfl, rfl, rfl, rfl⟩
theorem Same.trans {a b c : Cfl} (h : Same a b) (h' : Same b c) : Same a c :=
  ⟨h'.1.trans h.1, h'.2.trans h.2, h'.3.trans h.3, h'.4.trans h.4, h'.5.trans h.5⟩

theorem len_upd (live : Nat → List Nat) (p : Nat) (L : List Nat) :
    (fun q => (upd live p L q).length) = upd (fun q => (live q).length) p L.length := by
  funext q
  unfold upd
  split <;> rfl

theorem K.facts {k : Geo} (hk : k.OK) {c : Cfl} {sp : List Nat} {live : Nat → List Nat}
    (h : K k c sp live) {p : Nat} (hp : p ∈ sp) :
    (live p).Nodup ∧ (∀ o ∈ live p, IsObj (spanAt k p) o) ∧ (c.st p).alloc = (live p).length ∧
      (Span.freelistEmpty (spanAt k p) (c.st p) = true ↔ (live p).length = k.count) ∧
      0 < (live p).length ∧ (live p).length ≤ k.count := by
  obtain ⟨a, b, d, e⟩ := Span.span_state_exact _ (spanAt_ok hk p) _ _ _ (h.reach p hp)
  obtain ⟨F, _, _, _, hl⟩ := (h.reach p hp).inv (spanAt_ok hk p)
  refine ⟨a, b, d, e, List.length_pos_iff.2 (h.ne p hp), ?_⟩
  have : (spanAt k p).count = k.count := rfl
  omega

/-- Releasing a run of objects to their span. -/
theorem release_spec {k : Geo} (hk : k.OK) {c : Cfl} {sp : List Nat} {live : Nat → List Nat}
    (h : K k c sp live) {p : Nat} (hp : p ∈ sp) {batch : List Nat} (hnd : batch.Nodup)
    (hb0 : batch ≠ []) (hsub : ∀ o ∈ batch, o ∈ live p) :
    ((∀ o ∈ live p, o ∈ batch) ∧ ∃ c', releaseToSpans k c p (batch.map (Span.objIdx (spanAt k p))) =
        some (c', true) ∧ K k c' (sp.erase p) live ∧ Same c c' ∧ c'.w = c.w) ∨
    ((¬ ∀ o ∈ live p, o ∈ batch) ∧ ∃ c', releaseToSpans k c p (batch.map (Span.objIdx (spanAt k p))) =
        some (c', false) ∧ K k c' sp (upd live p ((live p).filter fun o => decide (o ∉ batch))) ∧
        Same c c' ∧
        (∀ q ∈ sp, ∀ o ∈ live q, o ∉ batch → ∀ a, InObj (spanAt k q) o a → c'.w a = c.w a) ∧
        ∀ a, (∀ q ∈ sp, ∀ o, IsObj (spanAt k q) o → ¬ InObj (spanAt k q) o a) → c'.w a = c.w a) := by
  obtain ⟨f1, f2, f3, f4, f5, f6⟩ := h.facts hk hp
  have hcl := count_lt hk
  have hlt : (live p).length < 2 ^ 16 := by omega
  have herase : ∀ q, q ≠ p → (q ∈ sp.erase p ↔ q ∈ sp) := by
    intro q hq; rw [h.nodup.mem_erase_iff]; simp [hq]
  rcases (h.reach p hp).push_some (spanAt_ok hk p) hnd hsub with ⟨e, hall⟩ | ⟨s', w', e, hnall, hr, hfr, hcont⟩
  · refine Or.inl ⟨hall, ?_⟩
    unfold releaseToSpans
    simp only [e, f3]
    obtain ⟨hist', e1, kh⟩ := h.hist.drop hp c rfl f5 hlt
    rw [e1]
    simp only [Option.bind_some]
    have rest : ∀ hl', KL k hl' c.idx (sp.erase p) (fun q => (live q).length) →
        K k { c with hist := hist', hl := hl' } (sp.erase p) live := by
      intro hl' kl
      refine ⟨h.nodup.erase p, ?_, ?_, ?_, kl, kh⟩
      · exact fun a ha b hb => h.apart a (List.mem_of_mem_erase ha) b (List.mem_of_mem_erase hb)
      · exact fun q hq => h.reach q (List.mem_of_mem_erase hq)
      · exact fun q hq => h.ne q (List.mem_of_mem_erase hq)
    have hoff : p ∈ sp.erase p → ¬ (live p).length < k.count := by
      intro hm; exact absurd rfl (h.nodup.mem_erase_iff.1 hm).1
    by_cases hwe : Span.freelistEmpty (spanAt k p) (c.st p) = true
    · rw [if_pos hwe]
      have hfull := f4.1 hwe
      refine ⟨_, rfl, rest c.hl ?_, ⟨rfl, rfl, rfl, rfl, rfl⟩, rfl⟩
      exact h.lists.off (p := p) (fun _ => by omega) herase (fun _ _ => rfl) hoff
    · rw [if_neg hwe]
      have hnf : (live p).length < k.count := by
        have : (live p).length ≠ k.count := fun e => hwe (f4.2 e)
        omega
      obtain ⟨hl', e2, kl⟩ := h.lists.remove hp hnf f5 herase (fun _ _ => rfl) hoff
      rw [e2]
      exact ⟨_, rfl, rest hl' kl, ⟨rfl, rfl, rfl, rfl, rfl⟩, rfl⟩
  · refine Or.inr ⟨hnall, ?_⟩
    generalize hL : (live p).filter (fun o => decide (o ∉ batch)) = L at *
    have hperm := filter_out_perm f1 hnd hsub
    rw [hL] at hperm
    have hlen := hperm.length_eq
    rw [List.length_append] at hlen
    have hLne : L ≠ [] := by
      rintro rfl
      apply hnall
      intro o ho
      have := hperm.mem_iff.2 ho
      simpa using this
    have hLpos := List.length_pos_iff.2 hLne
    have hr2 := (Span.span_state_exact _ (spanAt_ok hk p) _ _ _ hr).2.2.1
    unfold releaseToSpans
    simp only [e, f3, List.length_map]
    have hcur : (live p).length - batch.length = L.length := by omega
    rw [hcur, if_neg (by omega)]
    obtain ⟨hist', e1, kh⟩ := h.hist.change h.nodup hp { c with st := upd c.st p s', w := w' } rfl f5 hlt
      hLpos (show L.length < 2 ^ 16 by omega)
    simp only at e1
    rw [e1, indexFor_eq k hLpos]
    simp only [Option.bind_some]
    have rest : ∀ hl' idx', KL k hl' idx' sp (fun q => (upd live p L q).length) →
        K k { c with st := upd c.st p s', w := w', hist := hist', hl := hl', idx := idx' } sp
          (upd live p L) := by
      intro hl' idx' kl
      refine ⟨h.nodup, h.apart, ?_, ?_, kl, by rw [len_upd]; exact kh⟩
      · intro q hq
        show Span.Reach _ (upd c.st p s' q) w' (upd live p L q)
        by_cases hqp : q = p
        · subst hqp; rw [upd_same, upd_same]; exact hr
        · rw [upd_ne _ _ hqp, upd_ne _ _ hqp]
          refine .write w' (h.reach q hq) ?_
          intro o ho _ a ha
          apply hfr
          intro o' ho'
          exact apart_objs hk (h.apart q hq p hp hqp) ho ho' ha
      · intro q hq
        by_cases hqp : q = p
        · subst hqp; rw [upd_same]; exact hLne
        · rw [upd_ne _ _ hqp]; exact h.ne q hq
    have hcontents : ∀ q ∈ sp, ∀ o ∈ live q, o ∉ batch → ∀ a, InObj (spanAt k q) o a → w' a = c.w a := by
      intro q hq o ho hob a ha
      by_cases hqp : q = p
      · subst hqp; exact hcont o ho hob a ha
      · apply hfr
        intro o' ho'
        exact apart_objs hk (h.apart q hq p hp hqp) ((h.facts hk hq).2.1 o ho) ho' ha
    have hlu := len_upd live p L
    by_cases hwe : Span.freelistEmpty (spanAt k p) (c.st p) = true
    · rw [if_pos hwe]
      have hfull := f4.1 hwe
      have hbpos := List.length_pos_iff.2 hb0
      obtain ⟨hl', e2, kl⟩ := h.lists.add (p := p) (n := L.length) (sp' := sp)
        (fun _ => by omega) hLpos (by omega)
        (fun q => ⟨Or.inr, fun o => o.elim (fun e : q = p => e ▸ hp) id⟩)
      rw [e2]
      exact ⟨_, rfl, rest hl' _ (by rw [hlu]; exact kl), ⟨rfl, rfl, rfl, rfl, rfl⟩, hcontents, fun a ha => hfr a (ha p hp)⟩
    · rw [if_neg hwe]
      have hnf : (live p).length < k.count := by
        have : (live p).length ≠ k.count := fun e => hwe (f4.2 e)
        omega
      by_cases hi : ix k L.length ≠ c.idx p
      · rw [if_pos hi]
        obtain ⟨hl', e2, kl⟩ := h.lists.move hp hnf f5 hLpos (by omega) hi
        rw [e2]
        exact ⟨_, rfl, rest hl' _ (by rw [hlu]; exact kl), ⟨rfl, rfl, rfl, rfl, rfl⟩, hcontents, fun a ha => hfr a (ha p hp)⟩
      · rw [if_neg hi]
        have kl := h.lists.stay hp hnf (n := L.length) (by omega) (Classical.byContradiction hi)
        exact ⟨_, rfl, rest c.hl c.idx (by rw [hlu]; exact kl), ⟨rfl, rfl, rfl, rfl, rfl⟩, hcontents, fun a ha => hfr a (ha p hp)⟩

end Verif.CentralFreeList
