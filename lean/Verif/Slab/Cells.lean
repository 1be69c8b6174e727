import Verif.Slab.All
/-! How the cached objects and capacities depend on the memory. -/
namespace Verif.Slab

/-- Class `k` of CPU `c` is unchanged, in the current and in the replaced slabs. -/
structure At (w w' : W) (c k : Nat) : Prop where
  stack : w'.stack c k = w.stack c k
  capacity : w'.capacity c k = w.capacity c k
  left : w'.left c k = w.left c k
  leftCap : w'.leftCapacity c k = w.leftCapacity c k

theorem At.cell {w w' : W} {c k} (a : At w w' c k) : w'.cell c k = w.cell c k ∧ w'.space c k = w.space c k := by
  unfold W.cell W.space
  rw [a.stack, a.capacity, a.left, a.leftCap]
  exact ⟨rfl, rfl⟩

theorem words_congr {m m' : Mem} {b c beg n : Nat} (h : ∀ i, beg ≤ i → i < beg + n → m'.slot b c i = m.slot b c i) :
    m'.words b c beg n = m.words b c beg n := by
  unfold Mem.words
  apply List.map_congr_left
  intro x hx
  rw [List.mem_range] at hx
  exact h _ (by omega) (by omega)

theorem words_length (m : Mem) (b c beg n : Nat) : (m.words b c beg n).length = n := by simp [Mem.words]

theorem words_append (m : Mem) (b c beg n n' : Nat) :
    m.words b c beg (n + n') = m.words b c beg n ++ m.words b c (beg + n) n' := by
  unfold Mem.words
  rw [List.range_add, List.map_append, List.map_map]
  congr 1
  apply List.map_congr_left
  intro x _
  show m.slot b c (beg + (n + x)) = _
  rw [Nat.add_assoc]

theorem words_one (m : Mem) (b c beg : Nat) : m.words b c beg 1 = [m.slot b c beg] := by simp [Mem.words]

theorem stack_congr {w w' : W} {c k : Nat} (hp : w'.populated c = w.populated c) (hs : w'.slabs = w.slabs)
    (hb : w'.begins k = w.begins k) (he : w.populated c = true → w'.eff c k = w.eff c k)
    (hm : w.populated c = true → ∀ i, w.begins k ≤ i → i < (w.eff c k).cur → w'.mem.slot w.slabs c i = w.mem.slot w.slabs c i) :
    w'.stack c k = w.stack c k ∧ w'.capacity c k = w.capacity c k := by
  unfold W.stack W.capacity
  rw [hp, hs, hb]
  by_cases e : w.populated c = true
  · rw [if_pos e, if_pos e, if_pos e, if_pos e, he e]
    refine ⟨?_, rfl⟩
    apply words_congr
    intro i h1 h2
    exact hm e i h1 (by omega)
  · rw [if_neg e, if_neg e, if_neg e, if_neg e]
    exact ⟨rfl, rfl⟩

theorem left_congr {w w' : W} {c k : Nat} (ho : w'.old c k = w.old c k)
    (hm : ∀ ob obeg, w.old c k = some (ob, obeg) →
      w'.mem.hdr ob c k = w.mem.hdr ob c k ∧ ∀ i, w'.mem.slot ob c i = w.mem.slot ob c i) :
    w'.left c k = w.left c k ∧ w'.leftCapacity c k = w.leftCapacity c k := by
  unfold W.left W.leftCapacity
  rw [ho]
  cases e : w.old c k with
  | none => exact ⟨rfl, rfl⟩
  | some x =>
    obtain ⟨ob, obeg⟩ := x
    obtain ⟨h1, h2⟩ := hm ob obeg e
    simp only
    rw [h1]
    exact ⟨words_congr fun i _ _ => h2 i, rfl⟩

theorem old_congr {w w' : W} {c k : Nat} (hp : w'.populated c = w.populated c) (hr : w'.rs = w.rs) :
    w'.old c k = w.old c k := by
  unfold W.old
  rw [hr, hp]

/-- The replaced slabs are not the current ones. -/
theorem K.old_ne {cfg w} (k : K cfg w) {c a ob : Nat} {obeg : Nat → Nat} (h : w.old c a = some (ob, obeg)) :
    ob ≠ w.slabs := by
  unfold W.old at h
  split at h
  · rename_i i r e
    split at h
    · rename_i p ep
      split at h
      · exact (((k.rs i r e).2.post p ep).2).ne ob obeg h
      · cases h
    · cases h
  · cases h

/-- What a remote operation on a CPU makes of the header. -/
theorem eff_none {w : W} {c : Nat} (h : ∀ i st, w.rem c = some (i, st) → (∀ k beg, st ≠ .dr3 k beg) ∧
    ∀ k len n h, st ≠ .sh3 k len n h) (k : Nat) : w.eff c k = w.mem.hdr w.slabs c k := by
  unfold W.eff
  split
  · rename_i e; exact absurd rfl ((h _ _ e).1 _ _)
  · rename_i e; exact absurd rfl ((h _ _ e).2 _ _ _ _)
  · rfl

theorem eff_dr3 {w : W} {c i a beg : Nat} (h : w.rem c = some (i, .dr3 a beg)) (k : Nat) :
    w.eff c k = if a = k then ⟨w.begins k, w.begins k⟩ else w.mem.hdr w.slabs c k := by
  unfold W.eff; rw [h]

theorem eff_sh3 {w : W} {c i a len n : Nat} {h : Hdr} (e : w.rem c = some (i, .sh3 a len n h)) (k : Nat) :
    w.eff c k = if a = k then ⟨h.cur, (w.mem.hdr w.slabs c k).fin⟩ else w.mem.hdr w.slabs c k := by
  unfold W.eff; rw [e]

theorem eff_congr {w w' : W} {c k : Nat} (hr : w'.rem c = w.rem c) (hs : w'.slabs = w.slabs) (hb : w'.begins = w.begins)
    (hm : w'.mem.hdr w.slabs c k = w.mem.hdr w.slabs c k) : w'.eff c k = w.eff c k := by
  unfold W.eff
  rw [hr, hs, hb, hm]

theorem eff_cur_le {cfg w} (k : K cfg w) {c a : Nat} (hp : w.populated c = true) (ha : Valid cfg.nc a) :
    w.begins a ≤ (w.eff c a).cur ∧ (w.eff c a).cur ≤ (w.mem.hdr w.slabs c a).cur ∧
    (w.eff c a).cur ≤ (w.eff c a).fin ∧ (w.eff c a).fin ≤ (w.mem.hdr w.slabs c a).fin := by
  have r := k.reg c hp
  have h1 := r.lo a ha
  have h2 := r.mid a ha
  unfold W.eff
  split
  · rename_i e
    split
    · refine ⟨?_, ?_, ?_, ?_⟩ <;> simp only <;> omega
    · exact ⟨h1, Nat.le_refl _, h2, Nat.le_refl _⟩
  · rename_i e
    have := (k.rem _ _ _ e).2.2
    split
    · rename_i e'; subst e'
      obtain ⟨_, _, g1, g2, g3, g4⟩ := this
      refine ⟨?_, ?_, ?_, ?_⟩ <;> simp only <;> omega
    · exact ⟨h1, Nat.le_refl _, h2, Nat.le_refl _⟩
  · exact ⟨h1, Nat.le_refl _, h2, Nat.le_refl _⟩

/-- On the CPU a thread works on with a cached pointer no remote operation has anything pending. -/
theorem K.eff_in {cfg w} (k : K cfg w) {i : Nat} {th : Thread} {c : Nat} (hi : w.thr[i]? = some th) (nf : NoFence w i c)
    (hpc : th.pc ≠ .remote c) (a : Nat) : w.eff c a = w.mem.hdr w.slabs c a := by
  apply eff_none
  intro o st e
  have key : st.fenced c → False := by
    intro hf
    have := nf o (Or.inl ⟨st, e, hf⟩)
    subst this
    obtain ⟨th', h1, h2⟩ := (k.rem c o st e).2.1
    rw [hi] at h1
    injection h1 with h1
    subst h1
    exact hpc h2
  constructor
  · rintro k beg rfl; exact key trivial
  · rintro k len n h rfl; exact key trivial

/-- Writing a header of the current slabs. -/
theorem hdr_cells {cfg} {w w' : W} (k : K cfg w) {c a : Nat} {h : Hdr}
    (hm : w'.mem = w.mem.setH w.slabs c a h) (hs : w'.slabs = w.slabs) (hb : w'.begins = w.begins)
    (hp : w'.populated = w.populated) (hr : w'.rs = w.rs) (hrem : ∀ c', c' ≠ c → w'.rem c' = w.rem c')
    (hk : ∀ k', k' ≠ a → w'.eff c k' = w.eff c k') :
    (∀ c' k', ¬ (c' = c ∧ k' = a) → At w w' c' k') ∧
    (∀ c' k', w'.left c' k' = w.left c' k' ∧ w'.leftCapacity c' k' = w.leftCapacity c' k') := by
  have hl : ∀ c' k', w'.left c' k' = w.left c' k' ∧ w'.leftCapacity c' k' = w.leftCapacity c' k' := by
    intro c' k'
    refine left_congr (old_congr (by rw [hp]) hr) ?_
    intro ob obeg ho
    have := k.old_ne ho
    have := setH_off w.mem w.slabs c a h ob c' (fun e => this e.1)
    rw [hm]
    exact ⟨this.1 k', this.2⟩
  refine ⟨fun c' k' hne => ?_, hl⟩
  have hst := stack_congr (w := w) (w' := w') (c := c') (k := k') (by rw [hp]) hs (by rw [hb]) ?_ ?_
  · exact ⟨hst.1, hst.2, (hl c' k').1, (hl c' k').2⟩
  · intro _
    by_cases e : c' = c
    · subst e
      exact hk k' (fun e => hne ⟨rfl, e⟩)
    · exact eff_congr (hrem c' e) hs hb (by rw [hm]; exact (setH_off _ _ _ _ _ _ _ (fun h => e h.2)).1 _)
  · intro _ i _ _
    rw [hm]; rfl

/-- Writing a word above the top of a stack. -/
theorem slot_cells {cfg} {w w' : W} (k : K cfg w) {c a p v : Nat} (ha : Valid cfg.nc a) (hpop : w.populated c = true)
    (h1 : (w.mem.hdr w.slabs c a).cur ≤ p) (h2 : p < (w.mem.hdr w.slabs c a).fin)
    (hm : w'.mem = w.mem.setS w.slabs c p v) (hs : w'.slabs = w.slabs) (hb : w'.begins = w.begins)
    (hp : w'.populated = w.populated) (hr : w'.rs = w.rs) (hrem : w'.rem = w.rem) :
    ∀ c' k', Valid cfg.nc k' → At w w' c' k' := by
  intro c' k' hk'
  have hl := left_congr (w := w) (w' := w') (c := c') (k := k') (old_congr (by rw [hp]) hr) (by
    intro ob obeg ho
    have := k.old_ne ho
    have := setS_off w.mem w.slabs c p v ob c' (fun e => this e.1)
    rw [hm]
    exact ⟨this.1 k', this.2⟩)
  have hst := stack_congr (w := w) (w' := w') (c := c') (k := k') (by rw [hp]) hs (by rw [hb]) ?_ ?_
  · exact ⟨hst.1, hst.2, hl.1, hl.2⟩
  · intro _
    exact eff_congr (by rw [hrem]) hs hb (by rw [hm]; rfl)
  · intro hpc i hi1 hi2
    rw [hm]
    by_cases e : c' = c
    · subst e
      have hle := (eff_cur_le k hpc hk').2.1
      have r := k.reg c' hpc
      have hmid := r.mid k' hk'
      have hhi := r.hi k' hk'
      have hlo := r.lo a ha
      have hhi' := r.hi a ha
      have hne : i ≠ p := by
        intro hip; subst hip
        rcases Nat.lt_trichotomy k' a with hlt | heq | hgt
        · have := begins_apart k hk' ha hlt; omega
        · subst heq; omega
        · have := begins_apart k ha hk' hgt; omega
      show (if _ then _ else _) = _
      rw [if_neg (fun h => hne h.2.2)]
    · exact (setS_off _ _ _ _ _ _ _ (fun h => e h.2)).2 _

end Verif.Slab
