import Verif.PageTracker.Spec
import Verif.RangeTracker.Props
import Verif.Bitmap.Props
namespace Verif.PageTracker
open Verif.Bitmap Verif.RangeTracker

variable {N : Nat}

theorem releaseLoop_spec {used : List Word} (hu : WF N used) (ok : Nat → Bool) : ∀ (m index : Nat) (rel : List Word)
    (count : Nat) (calls : List Call), N - index ≤ m → WF N rel →
    ∃ rel' new, releaseLoop N used rel ok index count calls = some (rel', count + okSum new, calls ++ new) ∧
      WF N rel' ∧ (∀ c ∈ new, index ≤ c.i ∧ 0 < c.n ∧ c.i + c.n ≤ N) ∧
      new.Pairwise (fun a b => a.i + a.n ≤ b.i) ∧
      (∀ j, (∃ c ∈ new, c.Has j) ↔ index ≤ j ∧ j < N ∧ bitAt used j = false ∧ bitAt rel j = false) ∧
      (∀ j, bitAt rel' j = true ↔ bitAt rel j = true ∨ ∃ c ∈ new, c.ok = true ∧ c.Has j) ∧
      cnt (bitAt rel') 0 N = cnt (bitAt rel) 0 N + okSum new := by
  intro m
  induction m with
  | zero =>
    intro index rel count calls hm hr
    rw [releaseLoop]
    rcases nextFreeRange_spec hr index with ⟨i, n, e, h1, h2, h3, _⟩ | ⟨e, h1⟩
    · omega
    · rw [e]
      refine ⟨rel, [], by simp [okSum], hr, by simp, List.Pairwise.nil, ?_, by simp, by simp [okSum]⟩
      intro j
      constructor
      · rintro ⟨c, hc, _⟩; simp at hc
      · rintro ⟨a, b, _⟩; omega
  | succ m ih =>
    intro index rel count calls hm hr
    rw [releaseLoop]
    rcases nextFreeRange_spec hr index with ⟨i, n, e, h1, h2, h3, h4, h5, h6⟩ | ⟨e, h1⟩
    · rw [e]
      simp only []
      have key : ∃ fr, nextFreeRange N used i = some fr ∧
          ((∃ fi fn, fr.filter (fun x => decide (x.1 < i + n)) = some (fi, fn) ∧ i ≤ fi ∧ 0 < fn ∧ fi + fn ≤ N ∧ fi < i + n ∧
            (∀ j, i ≤ j → j < fi → bitAt used j = true) ∧ (∀ j, fi ≤ j → j < fi + fn → bitAt used j = false) ∧
            (fi + fn < N → bitAt used (fi + fn) = true)) ∨
          (fr.filter (fun x => decide (x.1 < i + n)) = none ∧ ∀ j, i ≤ j → j < i + n → bitAt used j = true)) := by
        rcases nextFreeRange_spec hu i with ⟨fi, fn, f1, f2, f3, f4, f5, f6, f7⟩ | ⟨f1, f2⟩
        · refine ⟨_, f1, ?_⟩
          by_cases hlt : fi < i + n
          · left
            exact ⟨fi, fn, by simp [Option.filter, hlt], f2, f3, f4, hlt, f5, f6, f7⟩
          · right
            exact ⟨by simp [Option.filter, hlt], fun j a b => f5 j a (by omega)⟩
        · exact ⟨none, f1, Or.inr ⟨rfl, fun j a b => f2 j a (by omega)⟩⟩
      obtain ⟨fr, hfr, hcase⟩ := key
      rw [hfr]
      simp only []
      rcases hcase with ⟨fi, fn, g1, g2, g3, g4, g5, g6, g7, g8⟩ | ⟨g1, g2⟩
      · rw [g1]
        simp only []
        generalize hee : min (fi + fn) (i + n) = ee
        have hlen : ∀ j, fi ≤ j → j < fi + (ee - fi) → bitAt used j = false ∧ bitAt rel j = false := by
          intro j a b
          exact ⟨g7 j a (by omega), h5 j (by omega) (by omega)⟩
        rw [countBits_spec hr (by omega), cnt_false (fun k a b => (hlen k a b).2), if_pos rfl,
          dif_pos (by omega)]
        -- pages between index and ee not in the run are used or released
        have hskip : ∀ j, index ≤ j → j < ee → bitAt used j = false → bitAt rel j = false → fi ≤ j ∧ j < fi + (ee - fi) := by
          intro j a b c d
          have k1 : i ≤ j := by
            apply Classical.byContradiction
            intro hc
            rw [h4 j a (by omega)] at d; simp at d
          have k2 : fi ≤ j := by
            apply Classical.byContradiction
            intro hc
            rw [g6 j k1 (by omega)] at c; simp at c
          omega
        cases hok : ok calls.length with
        | true =>
          rw [if_pos rfl]
          obtain ⟨rel1, r1, r2, r3⟩ := setRangeValue_spec true hr (index := fi) (n := ee - fi) (by omega) (by omega)
          rw [r1]
          simp only []
          obtain ⟨rel', new, s1, s2, s3, s4, s5, s6, s7⟩ := ih ee rel1 (count + (ee - fi))
            (calls ++ [⟨fi, ee - fi, true⟩]) (by omega) r2
          have hrel1 : ∀ j, ee ≤ j → bitAt rel1 j = bitAt rel j := by
            intro j a; rw [r3, if_neg (by omega)]
          refine ⟨rel', ⟨fi, ee - fi, true⟩ :: new, ?_, s2, ?_, ?_, ?_, ?_, ?_⟩
          · rw [s1]; simp [okSum, Nat.add_assoc]
          · intro c hc
            rcases List.mem_cons.1 hc with rfl | hc
            · simp only []; omega
            · have := s3 c hc; omega
          · refine List.pairwise_cons.2 ⟨fun b hb => ?_, s4⟩
            have := s3 b hb; simp only []; omega
          · intro j
            constructor
            · rintro ⟨c, hc, hj⟩
              rcases List.mem_cons.1 hc with rfl | hc
              · unfold Call.Has at hj; simp only [] at hj
                have := hlen j hj.1 hj.2
                exact ⟨by omega, by omega, this.1, this.2⟩
              · obtain ⟨a, b, c1, c2⟩ := (s5 j).1 ⟨c, hc, hj⟩
                exact ⟨by omega, b, c1, by rw [← hrel1 j a]; exact c2⟩
            · rintro ⟨a, b, c1, c2⟩
              by_cases hlt : j < ee
              · exact ⟨_, List.mem_cons_self, hskip j a hlt c1 c2⟩
              · obtain ⟨c, hc, hj⟩ := (s5 j).2 ⟨by omega, b, c1, by rw [hrel1 j (by omega)]; exact c2⟩
                exact ⟨c, by simp [hc], hj⟩
          · intro j
            rw [s6 j, r3]
            constructor
            · rintro (a | ⟨c, hc, a⟩)
              · split at a
                · rename_i hj
                  exact Or.inr ⟨_, List.mem_cons_self, rfl, hj⟩
                · exact Or.inl a
              · exact Or.inr ⟨c, by simp [hc], a⟩
            · rintro (a | ⟨c, hc, a, hj⟩)
              · left; split
                · rfl
                · exact a
              · rcases List.mem_cons.1 hc with rfl | hc
                · left
                  have hj' : fi ≤ j ∧ j < fi + (ee - fi) := hj
                  rw [if_pos hj']
                · exact Or.inr ⟨c, hc, a, hj⟩
          · have hset := cnt_setRange (f := bitAt rel) (g := bitAt rel1) (N := N) (i := fi) (n := ee - fi) (by omega)
              (fun k hk => by rw [r3, if_neg hk])
            rw [cnt_false (f := bitAt rel) (fun k a b => (hlen k a b).2),
              cnt_true (f := bitAt rel1) (a := fi) (n := ee - fi) (fun k a b => by rw [r3, if_pos ⟨a, b⟩])] at hset
            rw [s7]
            simp only [okSum, if_true]
            omega
        | false =>
          rw [if_neg (by simp)]
          obtain ⟨rel', new, s1, s2, s3, s4, s5, s6, s7⟩ := ih ee rel count
            (calls ++ [⟨fi, ee - fi, false⟩]) (by omega) hr
          refine ⟨rel', ⟨fi, ee - fi, false⟩ :: new, ?_, s2, ?_, ?_, ?_, ?_, ?_⟩
          · rw [s1]; simp [okSum]
          · intro c hc
            rcases List.mem_cons.1 hc with rfl | hc
            · simp only []; omega
            · have := s3 c hc; omega
          · refine List.pairwise_cons.2 ⟨fun b hb => ?_, s4⟩
            have := s3 b hb; simp only []; omega
          · intro j
            constructor
            · rintro ⟨c, hc, hj⟩
              rcases List.mem_cons.1 hc with rfl | hc
              · unfold Call.Has at hj; simp only [] at hj
                have := hlen j hj.1 hj.2
                exact ⟨by omega, by omega, this.1, this.2⟩
              · obtain ⟨a, b, c1, c2⟩ := (s5 j).1 ⟨c, hc, hj⟩
                exact ⟨by omega, b, c1, c2⟩
            · rintro ⟨a, b, c1, c2⟩
              by_cases hlt : j < ee
              · exact ⟨_, List.mem_cons_self, hskip j a hlt c1 c2⟩
              · obtain ⟨c, hc, hj⟩ := (s5 j).2 ⟨by omega, b, c1, c2⟩
                exact ⟨c, by simp [hc], hj⟩
          · intro j
            rw [s6 j]
            constructor
            · rintro (a | ⟨c, hc, a⟩)
              · exact Or.inl a
              · exact Or.inr ⟨c, by simp [hc], a⟩
            · rintro (a | ⟨c, hc, a, hj⟩)
              · exact Or.inl a
              · rcases List.mem_cons.1 hc with rfl | hc
                · simp at a
                · exact Or.inr ⟨c, hc, a, hj⟩
          · rw [s7]; simp [okSum]
      · rw [g1]
        simp only []
        rw [dif_pos (by omega)]
        obtain ⟨rel', new, s1, s2, s3, s4, s5, s6, s7⟩ := ih (i + n) rel count calls (by omega) hr
        refine ⟨rel', new, s1, s2, fun c hc => ?_, s4, ?_, s6, s7⟩
        · have := s3 c hc; omega
        · intro j
          rw [s5 j]
          constructor
          · rintro ⟨a, b⟩; exact ⟨by omega, b⟩
          · rintro ⟨a, b, c, d⟩
            refine ⟨?_, b, c, d⟩
            apply Classical.byContradiction
            intro hc
            by_cases hji : i ≤ j
            · rw [g2 j hji (by omega)] at c; simp at c
            · rw [h4 j a (by omega)] at d; simp at d
    · rw [e]
      refine ⟨rel, [], by simp [okSum], hr, by simp, List.Pairwise.nil, ?_, by simp, by simp [okSum]⟩
      intro j
      constructor
      · rintro ⟨c, hc, _⟩; simp at hc
      · rintro ⟨a, b, _, d⟩; rw [h1 j a b] at d; simp at d

/-! ### The invariant -/

def Alloc.pair (a : Alloc) : Nat × Nat := (a.i, a.n)

structure G (N : Nat) (t : PT) (live : List Alloc) : Prop where
  good : Good N t.free (live.map Alloc.pair)
  wf : WF N t.rel
  cnt : t.relCount = cnt (bitAt t.rel) 0 N
  free : ∀ j, t.Rel j → ¬ t.Used j
  objs : t.objects = (live.map Alloc.objs).sum

theorem G.new (loc : Nat) (d : Bool) : G N (PT.new N loc d) [] := by
  refine ⟨good_of_hist Hist.new, wf_empty N, ?_, ?_, rfl⟩
  · show 0 = Bitmap.cnt (bitAt (Bitmap.empty N)) 0 N
    rw [cnt_false (fun k _ _ => bitAt_empty N k)]
  · intro j hj
    have : bitAt (Bitmap.empty N) j = true := hj
    rw [bitAt_empty] at this; simp at this

theorem G.used_iff {t : PT} {live : List Alloc} (h : G N t live) (j : Nat) :
    t.Used j ↔ ∃ a ∈ live, a.Has j := by
  unfold PT.Used
  rw [h.good.used j]
  constructor
  · rintro ⟨r, hr, hj⟩
    obtain ⟨a, ha, rfl⟩ := List.mem_map.1 hr
    exact ⟨a, ha, hj⟩
  · rintro ⟨a, ha, hj⟩
    exact ⟨_, List.mem_map.2 ⟨a, ha, rfl⟩, hj⟩

theorem G.used_lt {t : PT} {live : List Alloc} (h : G N t live) {j : Nat} (hj : t.Used j) : j < N := by
  apply Classical.byContradiction
  intro hc
  have := h.good.exact.wf.dead j (by omega)
  unfold PT.Used at hj
  rw [this] at hj; simp at hj

theorem G.rel_lt {t : PT} {live : List Alloc} (h : G N t live) {j : Nat} (hj : t.Rel j) : j < N := by
  apply Classical.byContradiction
  intro hc
  have := h.wf.dead j (by omega)
  unfold PT.Rel at hj
  rw [this] at hj; simp at hj

/-- `Get`: everything about it. -/
theorem get_spec {t : PT} {live : List Alloc} (h : G N t live) {n : Nat} (objs : Nat) (hn : 0 < n)
    (hfit : n ≤ t.free.longestFree) :
    ∃ t' index len, get N t n objs = some (t', t.firstPage N + index, cnt (bitAt t.rel) index n) ∧
      index + n ≤ N ∧ BestFit (bitAt t.free.bits) N n index len ∧
      (∀ j, index ≤ j → j < index + n → ¬ t.Used j) ∧
      G N t' (⟨index, n, objs⟩ :: live) ∧
      (∀ j, t'.Used j ↔ t.Used j ∨ (index ≤ j ∧ j < index + n)) ∧
      (∀ j, t'.Rel j ↔ t.Rel j ∧ ¬ (index ≤ j ∧ j < index + n)) ∧
      t'.relCount + cnt (bitAt t.rel) index n = t.relCount ∧ t'.free.nused = t.free.nused + n ∧
      t'.free.nallocs = t.free.nallocs + 1 ∧
      (∃ f r c o, t' = { t with free := f, rel := r, relCount := c, objects := o }) := by
  obtain ⟨f, index, len, e, hb, hbits, hex, hnu, hna⟩ := findAndMark_spec h.good.exact h.good.allocs_le hn hfit
  have hle : index + n ≤ N := by have := hb.run.free.1; have := hb.fits; omega
  have hfree : ∀ j, index ≤ j → j < index + n → bitAt t.free.bits j = false :=
    fun j a b => hb.run.free.2 j a (by have := hb.fits; omega)
  have hgood := h.good.add hn ⟨hle, hfree⟩ hbits hex hnu hna
  have hnot : ∀ j, index ≤ j → j < index + n → ¬ t.Used j := by
    intro j a b; unfold PT.Used; rw [hfree j a b]; simp
  have hused : ∀ j, bitAt f.bits j = true ↔ t.Used j ∨ (index ≤ j ∧ j < index + n) := by
    intro j; rw [hbits j]; unfold PT.Used
    by_cases hj : index ≤ j ∧ j < index + n
    · rw [if_pos hj]; simp [hj]
    · rw [if_neg hj]; simp [hj]
  unfold get
  rw [e]
  simp only []
  by_cases hr : t.relCount > 0
  · rw [if_pos hr, countBits_spec h.wf hle]
    obtain ⟨rel', r1, r2, r3⟩ := setRangeValue_spec false h.wf hn hle
    rw [r1]
    simp only []
    have hset := cnt_setRange (f := bitAt t.rel) (g := bitAt rel') (N := N) (i := index) (n := n) hle
      (fun k hk => by rw [r3, if_neg hk])
    rw [cnt_false (f := bitAt rel') (a := index) (n := n) (fun k a b => by rw [r3, if_pos ⟨a, b⟩])] at hset
    have hc := h.cnt
    unfold subCount
    rw [if_pos (by omega)]
    simp only []
    have hrel : ∀ j, bitAt rel' j = true ↔ t.Rel j ∧ ¬ (index ≤ j ∧ j < index + n) := by
      intro j; rw [r3 j]; unfold PT.Rel
      by_cases hj : index ≤ j ∧ j < index + n
      · rw [if_pos hj]; simp [hj]
      · rw [if_neg hj]; simp [hj]
    refine ⟨_, index, len, rfl, hle, hb, hnot, ?_, hused, hrel, by simp only []; omega, hnu, hna, ⟨_, _, _, _, rfl⟩⟩
    refine ⟨hgood, r2, by simp only []; omega, ?_, ?_⟩
    · intro j hj hu
      have hj' := (hrel j).1 hj
      rcases (hused j).1 hu with hu | hu
      · exact h.free j hj'.1 hu
      · exact hj'.2 hu
    · show t.objects + objs = _
      rw [h.objs]; simp; omega
  · rw [if_neg hr]
    have hc := h.cnt
    have hz : ∀ j, ¬ t.Rel j := by
      intro j hj
      have hlt := h.rel_lt hj
      have hpos : 0 < cnt (bitAt t.rel) 0 N := by
        unfold cnt
        rw [List.countP_pos_iff]
        exact ⟨j, by rw [List.mem_range'_1]; omega, hj⟩
      omega
    have hz' : cnt (bitAt t.rel) index n = 0 := cnt_false (fun k _ _ => by
      have := hz k
      unfold PT.Rel at this
      simpa using this)
    refine ⟨{ t with free := f, objects := t.objects + objs }, index, len, by rw [hz'], hle, hb, hnot, ?_, hused, ?_, by simp only []; omega, hnu, hna, ⟨_, _, _, _, rfl⟩⟩
    · refine ⟨hgood, h.wf, h.cnt, fun j hj => absurd hj (hz j), ?_⟩
      show t.objects + objs = _
      rw [h.objs]; simp; omega
    · intro j
      constructor
      · intro hj; exact absurd hj (hz j)
      · intro hj; exact absurd hj.1 (hz j)

theorem get_none {t : PT} {live : List Alloc} (h : G N t live) {n objs : Nat} (hfit : t.free.longestFree < n) :
    get N t n objs = none := by
  unfold get
  rw [findAndMark_none h.good.exact hfit]

theorem put_spec {t : PT} {A B : List Alloc} {a : Alloc} (h : G N t (A ++ a :: B)) :
    ∃ t', put N t (t.firstPage N + a.i) a.n a.objs = some t' ∧ G N t' (A ++ B) ∧
      (∀ j, t'.Used j ↔ t.Used j ∧ ¬ a.Has j) ∧ (∀ j, t'.Rel j ↔ t.Rel j) ∧ t'.relCount = t.relCount ∧
      t'.free.nused + a.n = t.free.nused ∧ t'.free.nallocs + 1 = t.free.nallocs ∧
      (∃ f o, t' = { t with free := f, objects := o }) := by
  have hm : a.pair ∈ (A ++ a :: B).map Alloc.pair := List.mem_map.2 ⟨a, by simp, rfl⟩
  have hin : 0 < a.n ∧ a.i + a.n ≤ N := h.good.inside _ hm
  have hset : ∀ j, a.i ≤ j → j < a.i + a.n → bitAt t.free.bits j = true := h.good.live_set hm
  have hpos : 0 < t.free.nallocs := h.good.pos hm
  obtain ⟨f, e, hbits, hex, hu, ha⟩ := unmark_spec h.good.exact hpos hin.1 hin.2 hset
  have hgood := h.good.remove hm hbits hex hu ha
  have hl : ((A ++ a :: B).map Alloc.pair).erase a.pair = (A ++ B).map Alloc.pair := by
    have hnd := h.good.nodup
    simp only [List.map_append, List.map_cons] at hnd ⊢
    rw [List.erase_append_right, List.erase_cons_head]
    intro hA
    rw [List.nodup_append] at hnd
    exact hnd.2.2 _ hA _ (by simp) rfl
  have hl' : ((A ++ a :: B).map Alloc.pair).erase (a.i, a.n) = (A ++ B).map Alloc.pair := hl
  rw [hl'] at hgood
  have hidx : t.firstPage N + a.i - t.firstPage N = a.i := by omega
  have ho := h.objs
  simp only [List.map_append, List.map_cons, List.sum_append, List.sum_cons] at ho
  unfold put
  rw [if_neg (by omega), hidx, e]
  unfold subCount
  rw [if_pos (by omega)]
  have hused : ∀ j, bitAt f.bits j = true ↔ t.Used j ∧ ¬ a.Has j := by
    intro j; rw [hbits j]; unfold PT.Used Alloc.Has
    by_cases hj : a.i ≤ j ∧ j < a.i + a.n
    · rw [if_pos hj]; simp [hj]
    · rw [if_neg hj]; simp [hj]
  refine ⟨_, rfl, ?_, hused, fun j => Iff.rfl, rfl, hu, ha, ⟨_, _, rfl⟩⟩
  refine ⟨hgood, h.wf, h.cnt, ?_, ?_⟩
  · intro j hj hu'
    exact h.free j hj ((hused j).1 hu').1
  · show t.objects - a.objs = _
    rw [List.map_append, List.sum_append]; omega

theorem releaseFree_spec {t : PT} {live : List Alloc} (h : G N t live) (ok : Nat → Bool) :
    ∃ t' calls, releaseFree N t ok = some (t', okSum calls, calls) ∧ G N t' live ∧
      (∀ c ∈ calls, 0 < c.n ∧ c.i + c.n ≤ N) ∧ calls.Pairwise (fun a b => a.i + a.n ≤ b.i) ∧
      (∀ j, (∃ c ∈ calls, c.Has j) ↔ j < N ∧ ¬ t.Used j ∧ ¬ t.Rel j) ∧
      (∀ j, t'.Rel j ↔ t.Rel j ∨ ∃ c ∈ calls, c.ok = true ∧ c.Has j) ∧
      (∀ j, t'.Used j ↔ t.Used j) ∧ t'.relCount = t.relCount + okSum calls ∧
      (∃ r c u g, t' = { t with rel := r, relCount := c, unbroken := u, hugeBacked := g }) := by
  obtain ⟨rel', new, s1, s2, s3, s4, s5, s6, s7⟩ := releaseLoop_spec h.good.exact.wf ok N 0 t.rel 0 [] (by omega) h.wf
  simp only [Nat.zero_add, List.nil_append] at s1
  unfold releaseFree
  rw [s1]
  have hc := h.cnt
  have hle := cnt_le (bitAt rel') 0 N
  simp only []
  rw [if_pos (by omega)]
  refine ⟨_, new, rfl, ?_, fun c hc => (s3 c hc).2, s4, ?_, s6, fun j => Iff.rfl, rfl, ⟨_, _, _, _, rfl⟩⟩
  · refine ⟨h.good, s2, by simp only []; omega, ?_, h.objs⟩
    intro j hj hu
    rcases (s6 j).1 hj with hj | ⟨c, hc, _, hj⟩
    · exact h.free j hj hu
    · obtain ⟨_, _, a, _⟩ := (s5 j).1 ⟨c, hc, hj⟩
      have hu' : bitAt t.free.bits j = true := hu
      rw [hu'] at a; simp at a
  · intro j
    rw [s5 j]
    unfold PT.Used PT.Rel
    simp

theorem markSubreleased_spec {t : PT} {live : List Alloc} (h : G N t live) {ub : List Word} (hub : WF N ub) :
    ∃ t' c, markSubreleased N t ub = some (t', c) ∧ G N t' live ∧
      (∀ j, t'.Rel j ↔ t.Rel j ∨ (j < N ∧ ¬ t.Used j ∧ bitAt ub j = true)) ∧
      (∀ j, t'.Used j ↔ t.Used j) ∧ t'.relCount = t.relCount + c ∧
      (∃ r c, t' = { t with rel := r, relCount := c, unbroken := false }) := by
  obtain ⟨⟨w1, b1⟩, _, _⟩ := bitwise_exact N t.free.bits t.free.bits h.good.exact.wf h.good.exact.wf
  obtain ⟨⟨w2, b2⟩, _, _⟩ := bitwise_exact N t.rel t.rel h.wf h.wf
  obtain ⟨_, ⟨w3, b3⟩, _⟩ := bitwise_exact N _ _ w1 w2
  obtain ⟨_, ⟨w4, b4⟩, _⟩ := bitwise_exact N _ _ w3 hub
  obtain ⟨_, _, ⟨w5, b5⟩, _⟩ := bitwise_exact N _ _ h.wf w4
  unfold markSubreleased
  simp only []
  rw [countBits_spec w4 (by omega)]
  simp only []
  generalize hT : band (band (complement N t.free.bits) (complement N t.rel)) ub = T at *
  have hTj : ∀ j, bitAt T j = true ↔ j < N ∧ ¬ t.Used j ∧ ¬ t.Rel j ∧ bitAt ub j = true := by
    intro j
    rw [b4 j, b3 j]
    by_cases hj : j < N
    · rw [b1 j hj, b2 j hj]
      unfold PT.Used PT.Rel
      simp [hj, and_assoc]
    · rw [hub.dead j (by omega)]
      simp [hj]
  have hcnt : cnt (bitAt (bor t.rel T)) 0 N = cnt (bitAt t.rel) 0 N + cnt (bitAt T) 0 N := by
    have hdis : ∀ j, ¬ (bitAt t.rel j = true ∧ bitAt T j = true) := by
      rintro j ⟨a, b⟩
      exact ((hTj j).1 b).2.2.1 a
    unfold cnt
    have : ∀ L : List Nat, L.countP (bitAt (bor t.rel T)) = L.countP (bitAt t.rel) + L.countP (bitAt T) := by
      intro L
      induction L with
      | nil => rfl
      | cons x L ih =>
        rw [List.countP_cons, List.countP_cons, List.countP_cons, ih, b5 x]
        have := hdis x
        cases ha : bitAt t.rel x <;> cases hb : bitAt T x <;> simp [ha, hb] at this ⊢ <;> omega
    exact this _
  have hc := h.cnt
  have hle := cnt_le (bitAt (bor t.rel T)) 0 N
  rw [if_pos (by omega)]
  have hrel : ∀ j, bitAt (bor t.rel T) j = true ↔ t.Rel j ∨ (j < N ∧ ¬ t.Used j ∧ bitAt ub j = true) := by
    intro j
    rw [b5 j, Bool.or_eq_true, hTj j]
    constructor
    · rintro (a | a)
      · exact Or.inl a
      · exact Or.inr ⟨a.1, a.2.1, a.2.2.2⟩
    · rintro (a | a)
      · exact Or.inl a
      · by_cases hr : t.Rel j
        · exact Or.inl hr
        · exact Or.inr ⟨a.1, a.2.1, hr, a.2.2⟩
  refine ⟨_, _, rfl, ?_, hrel, fun j => Iff.rfl, rfl, ⟨_, _, rfl⟩⟩
  refine ⟨h.good, w5, by simp only []; omega, ?_, h.objs⟩
  intro j hj hu
  rcases (hrel j).1 hj with hj | hj
  · exact h.free j hj hu
  · exact hj.2.1 hu

theorem get_some_fit {t t' : PT} {live : List Alloc} (h : G N t live) {n objs p u : Nat}
    (e : get N t n objs = some (t', p, u)) : 0 < n ∧ n ≤ t.free.longestFree := by
  constructor
  · apply Classical.byContradiction
    intro hc
    unfold get findAndMark at e
    rw [if_neg hc] at e
    simp at e
  · apply Classical.byContradiction
    intro hc
    rw [get_none h (by omega)] at e
    simp at e

theorem Reach.G {t : PT} {live : List Alloc} (h : Reach N t live) : G N t live := by
  induction h with
  | new loc d => exact G.new loc d
  | get n objs index u _ e ih =>
    obtain ⟨hn, hfit⟩ := get_some_fit ih e
    obtain ⟨t', index', len, e', _, _, _, g, _⟩ := get_spec ih objs hn hfit
    rw [e] at e'
    simp only [Option.some.injEq, Prod.mk.injEq] at e'
    obtain ⟨rfl, e2, _⟩ := e'
    have : index = index' := by omega
    subst this
    exact g
  | put A a B _ e ih =>
    obtain ⟨t', e', g, _⟩ := put_spec ih
    rw [e] at e'
    simp only [Option.some.injEq] at e'
    subst e'
    exact g
  | release ok count calls _ e ih =>
    obtain ⟨t', calls', e', g, _⟩ := releaseFree_spec ih ok
    rw [e] at e'
    simp only [Option.some.injEq, Prod.mk.injEq] at e'
    obtain ⟨rfl, _⟩ := e'
    exact g
  | subreleased ub c _ hw e ih =>
    obtain ⟨t', c', e', g, _⟩ := markSubreleased_spec ih hw
    rw [e] at e'
    simp only [Option.some.injEq, Prod.mk.injEq] at e'
    obtain ⟨rfl, _⟩ := e'
    exact g

/-! ### Reported runs -/

theorem spanRuns_spec {used rel : List Word} (hu : WF N used) (hr : WF N rel) : ∀ (m index : Nat), N - index ≤ m →
    ∃ L, spanRuns N used rel index = some L ∧ (∀ x ∈ L, index ≤ x.1 ∧ 0 < x.2.1 ∧ x.1 + x.2.1 ≤ N) ∧
      L.Pairwise (fun a b => a.1 + a.2.1 ≤ b.1) ∧
      (∀ x ∈ L, ∀ j, x.1 ≤ j → j < x.1 + x.2.1 → bitAt used j = false ∧ bitAt rel j = x.2.2) ∧
      (∀ j, index ≤ j → j < N → bitAt used j = false → ∃ x ∈ L, x.1 ≤ j ∧ j < x.1 + x.2.1) := by
  intro m
  induction m with
  | zero =>
    intro index hm
    rw [spanRuns]
    rcases nextFreeRange_spec hu index with ⟨i, n, e, h1, h2, h3, _⟩ | ⟨e, h1⟩
    · omega
    · rw [e]
      exact ⟨[], rfl, by simp, List.Pairwise.nil, by simp, fun j a b => by omega⟩
  | succ m ih =>
    intro index hm
    rw [spanRuns]
    rcases nextFreeRange_spec hu index with ⟨i, n, e, h1, h2, h3, h4, h5, h6⟩ | ⟨e, h1⟩
    · rw [e]
      simp only []
      rw [(single_bit_exact N rel hr i (by omega)).1]
      simp only []
      have hend : ∃ ee, (if i ≥ N - 1 then some N else findValue (!bitAt rel i) N rel (i + 1)) = some ee ∧
          i < ee ∧ ee ≤ N ∧ ∀ j, i ≤ j → j < ee → bitAt rel j = bitAt rel i := by
        by_cases hi : i ≥ N - 1
        · rw [if_pos hi]
          refine ⟨N, rfl, by omega, Nat.le_refl _, fun j a b => ?_⟩
          have : j = i := by omega
          rw [this]
        · rw [if_neg hi]
          obtain ⟨r, f1, f2, f3, f4, f5⟩ := findValue_spec (!bitAt rel i) hr (index := i + 1) (by omega)
          refine ⟨r, f1, by omega, f3, fun j a b => ?_⟩
          by_cases hji : j = i
          · rw [hji]
          · have := f4 j (by omega) b
            cases hx : bitAt rel j <;> cases hy : bitAt rel i <;> simp [hx, hy] at this ⊢
      obtain ⟨ee, e1, e2, e3, e4⟩ := hend
      rw [e1]
      simp only []
      generalize hn' : min (ee - i) n = n'
      rw [dif_pos (by omega)]
      obtain ⟨L, s1, s2, s3, s4, s5⟩ := ih (i + n') (by omega)
      rw [s1]
      refine ⟨_, rfl, ?_, ?_, ?_, ?_⟩
      · intro x hx
        rcases List.mem_cons.1 hx with rfl | hx
        · simp only []; omega
        · have := s2 x hx; omega
      · refine List.pairwise_cons.2 ⟨fun x hx => ?_, s3⟩
        have := s2 x hx; simp only []; omega
      · intro x hx j a b
        rcases List.mem_cons.1 hx with rfl | hx
        · simp only [] at a b ⊢
          exact ⟨h5 j a (by omega), e4 j a (by omega)⟩
        · exact s4 x hx j a b
      · intro j a b c
        by_cases hj : j < i + n'
        · refine ⟨_, List.mem_cons_self, ?_⟩
          simp only []
          refine ⟨?_, hj⟩
          apply Classical.byContradiction
          intro hc
          rw [h4 j a (by omega)] at c; simp at c
        · obtain ⟨x, hx, hxj⟩ := s5 j (by omega) b c
          exact ⟨x, by simp [hx], hxj⟩
    · rw [e]
      refine ⟨[], rfl, by simp, List.Pairwise.nil, by simp, fun j a b c => ?_⟩
      rw [h1 j a b] at c; simp at c

end Verif.PageTracker
