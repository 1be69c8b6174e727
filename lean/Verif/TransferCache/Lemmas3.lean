import Verif.TransferCache.Model
/-! The resizing of the caches of all classes. -/
namespace Verif.TransferCache

theorem insertSorted_perm (a : MissInfo) : ∀ l, (insertSorted a l).Perm (a :: l)
  | [] => List.Perm.refl _
  | b :: l => by
    unfold insertSorted
    split
    · exact ((insertSorted_perm a l).cons b).trans (List.Perm.swap a b l)
    · exact List.Perm.refl _

theorem sort_perm : ∀ l, (sortMisses l).Perm l
  | [] => List.Perm.refl _
  | a :: l => (insertSorted_perm a _).trans ((sort_perm l).cons a)

theorem before_misses {a b : MissInfo} (h : a.before b = true) : b.misses ≤ a.misses := by
  unfold MissInfo.before at h
  split at h
  · omega
  · simp at h; omega

theorem not_before {a b : MissInfo} (h : a.before b = false) : a.misses ≤ b.misses := by
  unfold MissInfo.before at h
  split at h
  · omega
  · simp at h; omega

theorem insertSorted_sorted (a : MissInfo) : ∀ l, l.Pairwise (fun a b : MissInfo => b.misses ≤ a.misses) →
    (insertSorted a l).Pairwise (fun a b : MissInfo => b.misses ≤ a.misses)
  | [], _ => by simp [insertSorted]
  | b :: l, h => by
    rw [List.pairwise_cons] at h
    unfold insertSorted
    split
    · next hb =>
      rw [List.pairwise_cons]
      refine ⟨?_, insertSorted_sorted a l h.2⟩
      intro c hc
      rcases List.mem_cons.1 ((insertSorted_perm a l).mem_iff.1 hc) with rfl | hc
      · exact before_misses hb
      · exact h.1 c hc
    · next hb =>
      have hb' := not_before (Bool.eq_false_iff.2 hb)
      rw [List.pairwise_cons]
      refine ⟨?_, List.pairwise_cons.2 h⟩
      intro c hc
      rcases List.mem_cons.1 hc with rfl | hc
      · exact hb'
      · exact Nat.le_trans (h.1 c hc) hb'

theorem sort_sorted : ∀ l, (sortMisses l).Pairwise (fun a b : MissInfo => b.misses ≤ a.misses)
  | [] => List.Pairwise.nil
  | a :: l => insertSorted_sorted a _ (sort_sorted l)

theorem shrinkScan_spec (z : Sizes) (ms : List MissInfo) (g : Nat) : ∀ (s : Nat) (cap : Nat → Nat), s < ms.length →
    ∃ s1 cap1 b, shrinkScan z ms g s cap = (s1, cap1, b) ∧ s1 ≤ s ∧
      ((b = false ∧ cap1 = cap ∧ s1 ≤ g) ∨
       (b = true ∧ g < s1 ∧ ∃ m, ms[s1]? = some m ∧ z.n m.cls < cap m.cls ∧
         cap1 = updc cap m.cls (cap m.cls - z.n m.cls)))
  | 0, cap, _ => ⟨0, cap, false, rfl, Nat.le_refl _, Or.inl ⟨rfl, rfl, Nat.zero_le _⟩⟩
  | s + 1, cap, h => by
    unfold shrinkScan
    by_cases hg : g < s + 1
    · rw [if_pos hg, List.getElem?_eq_getElem h]
      dsimp only
      by_cases hc : z.n ms[s + 1].cls < cap ms[s + 1].cls
      · rw [if_pos hc]
        exact ⟨_, _, _, rfl, Nat.le_refl _, Or.inr ⟨rfl, hg, _, List.getElem?_eq_getElem h, hc, rfl⟩⟩
      · rw [if_neg hc]
        obtain ⟨s1, cap1, b, e, hl, h'⟩ := shrinkScan_spec z ms g s cap (by omega)
        exact ⟨s1, cap1, b, e, by omega, h'⟩
    · rw [if_neg hg]
      exact ⟨_, _, _, rfl, Nat.le_refl _, Or.inl ⟨rfl, rfl, by omega⟩⟩

/-- What the main loop maintains: positions `G` grown, `S` shrunk. -/
structure J (z : Sizes) (kMax : Nat) (ms : List MissInfo) (cap0 : Nat → Nat) (g s : Nat) (cap : Nat → Nat)
    (G S : List Nat) : Prop where
  gs : g ≤ s + 1
  gpos : ∀ i ∈ G, i < g
  spos : ∀ i ∈ S, s < i
  gnd : G.Nodup
  snd : S.Nodup
  len : G.length = S.length
  lim : G.length ≤ kMax
  grew : ∀ i ∈ G, ∃ m, ms[i]? = some m ∧ 0 < m.misses ∧ cap m.cls = cap0 m.cls + z.n m.cls ∧ cap m.cls ≤ z.max m.cls
  shr : ∀ i ∈ S, ∃ m, ms[i]? = some m ∧ cap m.cls + z.n m.cls = cap0 m.cls ∧ 0 < cap m.cls
  rest : ∀ c, (∀ i m, i ∈ G ++ S → ms[i]? = some m → m.cls ≠ c) → cap c = cap0 c

theorem cls_inj {ms : List MissInfo} (h : (ms.map MissInfo.cls).Nodup) {i j : Nat} {a b : MissInfo}
    (hi : ms[i]? = some a) (hj : ms[j]? = some b) (e : a.cls = b.cls) : i = j := by
  have hi' : (ms.map MissInfo.cls)[i]? = some a.cls := by rw [List.getElem?_map, hi]; rfl
  have hj' : (ms.map MissInfo.cls)[j]? = some a.cls := by rw [List.getElem?_map, hj, e]; rfl
  obtain ⟨hil, e1⟩ := List.getElem?_eq_some_iff.1 hi'
  obtain ⟨hjl, e2⟩ := List.getElem?_eq_some_iff.1 hj'
  have hp := List.pairwise_iff_getElem.1 h
  rcases Nat.lt_trichotomy i j with h' | h' | h'
  · exact absurd (e1.trans e2.symm) (hp i j hil hjl h')
  · exact h'
  · exact absurd (e2.trans e1.symm) (hp j i hjl hil h')

theorem resizeLoop_spec (z : Sizes) (kMax : Nat) (ms : List MissInfo) (cap0 : Nat → Nat)
    (hnd : (ms.map MissInfo.cls).Nodup) : ∀ (fuel g s : Nat) (cap : Nat → Nat) (G S : List Nat),
    s - g ≤ fuel → s < ms.length ∨ ms.length = 0 ∧ s = 0 → J z kMax ms cap0 g s cap G S →
    ∃ g' s' cap' G' S', resizeLoop z kMax ms fuel g s cap G.length S.length = some (cap', G'.length, S'.length) ∧
      J z kMax ms cap0 g' s' cap' G' S'
  | 0, g, s, cap, G, S, hf, hs, h => by
    unfold resizeLoop
    rw [if_neg (by omega)]
    exact ⟨g, s, cap, G, S, rfl, h⟩
  | fuel + 1, g, s, cap, G, S, hf, hs, h => by
    unfold resizeLoop
    by_cases hgs : g < s
    · rw [if_pos hgs]
      by_cases hk : G.length = kMax
      · rw [if_pos hk]; exact ⟨g, s, cap, G, S, rfl, h⟩
      · rw [if_neg hk]
        have hsl : s < ms.length := by omega
        have hgl : g < ms.length := by omega
        have hmg : ms[g]? = some ms[g] := List.getElem?_eq_getElem hgl
        rw [hmg]
        dsimp only
        generalize ms[g] = m at hmg ⊢
        have hJ1 : J z kMax ms cap0 (g + 1) s cap G S :=
          { h with gs := by omega, gpos := fun i hi => Nat.lt_succ_of_lt (h.gpos i hi) }
        by_cases hc : z.max m.cls < cap m.cls + z.n m.cls
        · rw [if_pos hc]
          exact resizeLoop_spec z kMax ms cap0 hnd fuel (g + 1) s cap G S (by omega) hs hJ1
        · rw [if_neg hc]
          by_cases hm : m.misses = 0
          · rw [if_pos hm]; exact ⟨g, s, cap, G, S, rfl, h⟩
          · rw [if_neg hm]
            obtain ⟨s1, cap1, b, e, hl, h'⟩ := shrinkScan_spec z ms g s cap hsl
            rw [e]
            dsimp only
            rcases h' with ⟨rfl, rfl, h2⟩ | ⟨rfl, h2, ms1, hms1, hcs, rfl⟩
            · rw [show s1 - g = 0 by omega]
              show ∃ g' s' cap' G' S', resizeLoop z kMax ms fuel (g + 1) (s1 - 1) cap1 (G.length + 0) (S.length + 0) = _ ∧ _
              refine ⟨g, s, cap1, G, S, ?_, h⟩
              cases fuel with
              | zero => unfold resizeLoop; rw [if_neg (by omega)]; rfl
              | succ f => unfold resizeLoop; rw [if_neg (by omega)]; rfl
            · have hne : m.cls ≠ ms1.cls := fun e => by
                have := cls_inj hnd hmg hms1 e; omega
              have hgrow : growScan z ms (s1 - g) g (updc cap ms1.cls (cap ms1.cls - z.n ms1.cls)) =
                  (g, updc (updc cap ms1.cls (cap ms1.cls - z.n ms1.cls)) m.cls (cap m.cls + z.n m.cls), true) := by
                obtain ⟨d, hd⟩ : ∃ d, s1 - g = d + 1 := ⟨s1 - g - 1, by omega⟩
                rw [hd]; unfold growScan
                rw [hmg]
                dsimp only
                have : updc cap ms1.cls (cap ms1.cls - z.n ms1.cls) m.cls = cap m.cls := if_neg hne
                rw [this, if_pos (by omega)]
              rw [hgrow]
              dsimp only
              have hlen1 : G.length + (if true = true then 1 else 0) = (g :: G).length := rfl
              have hlen2 : S.length + (if true = true then 1 else 0) = (s1 :: S).length := rfl
              rw [hlen1, hlen2]
              refine resizeLoop_spec z kMax ms cap0 hnd fuel (g + 1) (s1 - 1) _ (g :: G) (s1 :: S) (by omega) (by omega) ?_
              have hgcls : ∀ i ∈ G, ∀ mi, ms[i]? = some mi → mi.cls ≠ m.cls ∧ mi.cls ≠ ms1.cls := by
                intro i hi mi hmi
                have hlt := h.gpos i hi
                exact ⟨fun e => by have := cls_inj hnd hmi hmg e; omega,
                  fun e => by have := cls_inj hnd hmi hms1 e; omega⟩
              have hscls : ∀ i ∈ S, ∀ mi, ms[i]? = some mi → mi.cls ≠ m.cls ∧ mi.cls ≠ ms1.cls := by
                intro i hi mi hmi
                have hlt := h.spos i hi
                exact ⟨fun e => by have := cls_inj hnd hmi hmg e; omega,
                  fun e => by have := cls_inj hnd hmi hms1 e; omega⟩
              have hcap : ∀ c, c ≠ m.cls → c ≠ ms1.cls →
                  updc (updc cap ms1.cls (cap ms1.cls - z.n ms1.cls)) m.cls (cap m.cls + z.n m.cls) c = cap c := by
                intro c h1 h2
                unfold updc
                rw [if_neg h1, if_neg h2]
              have hm0 : cap m.cls = cap0 m.cls := by
                apply h.rest
                intro i mi hi hmi e
                rcases List.mem_append.1 hi with hi | hi
                · exact (hgcls i hi mi hmi).1 e
                · exact (hscls i hi mi hmi).1 e
              have hm1 : cap ms1.cls = cap0 ms1.cls := by
                apply h.rest
                intro i mi hi hmi e
                rcases List.mem_append.1 hi with hi | hi
                · exact (hgcls i hi mi hmi).2 e
                · exact (hscls i hi mi hmi).2 e
              refine ⟨by omega, ?_, ?_, ?_, ?_, by simp [h.len], by have := h.lim; simp; omega, ?_, ?_, ?_⟩
              · intro i hi
                rcases List.mem_cons.1 hi with rfl | hi
                · omega
                · have := h.gpos i hi; omega
              · intro i hi
                rcases List.mem_cons.1 hi with rfl | hi
                · omega
                · have := h.spos i hi; omega
              · rw [List.nodup_cons]; exact ⟨fun hi => by have := h.gpos g hi; omega, h.gnd⟩
              · rw [List.nodup_cons]; exact ⟨fun hi => by have := h.spos s1 hi; omega, h.snd⟩
              · intro i hi
                rcases List.mem_cons.1 hi with rfl | hi
                · refine ⟨m, hmg, by omega, ?_, ?_⟩
                  · unfold updc; rw [if_pos rfl, hm0]
                  · unfold updc; rw [if_pos rfl]; omega
                · obtain ⟨mi, a1, a2, a3, a4⟩ := h.grew i hi
                  have := hcap mi.cls (hgcls i hi mi a1).1 (hgcls i hi mi a1).2
                  exact ⟨mi, a1, a2, by rw [this]; exact a3, by rw [this]; exact a4⟩
              · intro i hi
                rcases List.mem_cons.1 hi with rfl | hi
                · refine ⟨ms1, hms1, ?_, ?_⟩
                  · unfold updc; rw [if_neg (Ne.symm hne), if_pos rfl]; omega
                  · unfold updc; rw [if_neg (Ne.symm hne), if_pos rfl]; omega
                · obtain ⟨mi, a1, a2, a3⟩ := h.shr i hi
                  have := hcap mi.cls (hscls i hi mi a1).1 (hscls i hi mi a1).2
                  exact ⟨mi, a1, by rw [this]; exact a2, by rw [this]; exact a3⟩
              · intro c hc'
                have n1 : c ≠ m.cls := fun e => hc' g m (by simp) hmg e.symm
                have n2 : c ≠ ms1.cls := fun e => hc' s1 ms1 (by simp) hms1 e.symm
                rw [hcap c n1 n2]
                apply h.rest
                intro i mi hi hmi
                apply hc' i mi _ hmi
                rcases List.mem_append.1 hi with hi | hi
                · simp [hi]
                · simp [hi]
    · rw [if_neg hgs]
      exact ⟨g, s, cap, G, S, rfl, h⟩

end Verif.TransferCache
