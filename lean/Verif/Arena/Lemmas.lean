import Verif.Arena.Spec
/-! The arena: free list in memory, one call of `Alloc`. -/
namespace Verif.Arena

/-! ## Regions -/

theorem Disj.symm {p q : Nat × Nat} (h : Disj p q) : Disj q p := fun x hx => h x ⟨hx.2, hx.1⟩

theorem Disj.sub {p q r : Nat × Nat} (h : Disj p q) (h1 : p.1 ≤ r.1) (h2 : r.1 + r.2 ≤ p.1 + p.2) : Disj r q :=
  fun x hx => h x ⟨⟨by omega, by omega⟩, hx.2⟩

theorem Disj.zero {p q : Nat × Nat} (h : p.2 = 0) : Disj p q := fun x hx => by omega

theorem pad_spec {area align : Nat} (h : 0 < align) : pad area align < align ∧ (area + pad area align) % align = 0 := by
  unfold pad
  have h1 := Nat.mod_lt area h
  split
  · rename_i h2
    refine ⟨by omega, ?_⟩
    have h3 := Nat.div_add_mod area align
    have : area + (align - area % align) = align * (area / align) + align := by omega
    rw [this, Nat.add_mod_right, Nat.mul_mod_right]
  · rename_i h2
    exact ⟨h, by simpa using h2⟩

theorem pad_zero {area align : Nat} (h : area % align = 0) : pad area align = 0 := if_neg (fun h' => h' h)

/-! ## The free list in memory -/

/-- From `h`, memory holds the blocks `l`. -/
def Chain (mem : Nat → Nat) : Nat → List (Nat × Nat) → Prop
  | h, [] => h = 0
  | h, b :: r => h = b.1 ∧ b.1 ≠ 0 ∧ mem (b.1 + 8) = b.2 ∧ Chain mem (mem b.1) r

theorem Chain.congr {mem mem' : Nat → Nat} : ∀ {l : List (Nat × Nat)} {h : Nat},
    (∀ b ∈ l, mem' b.1 = mem b.1 ∧ mem' (b.1 + 8) = mem (b.1 + 8)) → Chain mem h l → Chain mem' h l
  | [], _, _, hc => hc
  | b :: r, _, he, hc => by
    have := he b List.mem_cons_self
    refine ⟨hc.1, hc.2.1, by rw [this.2]; exact hc.2.2.1, ?_⟩
    rw [this.1]
    exact Chain.congr (fun b hb => he b (List.mem_cons_of_mem _ hb)) hc.2.2.2

/-- The address of the last block. -/
def lastOr : Nat → List (Nat × Nat) → Nat
  | prev, [] => prev
  | _, b :: r => lastOr b.1 r

theorem lastOr_concat (q : Nat × Nat) : ∀ (prev : Nat) (l : List (Nat × Nat)), lastOr prev (l ++ [q]) = q.1
  | _, [] => rfl
  | _, b :: r => lastOr_concat q b.1 r

/-- The search finds the first block that fits. -/
theorem search_spec {mem : Nat → Nat} {bytes align : Nat} : ∀ {l : List (Nat × Nat)} {fuel cur prev : Nat}, l.length < fuel →
    Chain mem cur l →
    (search mem bytes align fuel cur prev = some none ∧ ∀ b ∈ l, b.2 < pad b.1 align + bytes) ∨
    ∃ l1 b l2, l = l1 ++ b :: l2 ∧ pad b.1 align + bytes ≤ b.2 ∧ (∀ c ∈ l1, c.2 < pad c.1 align + bytes) ∧
      search mem bytes align fuel cur prev = some (some (b.1, lastOr prev l1))
  | [], 0, _, _, hf, _ => absurd hf (by simp)
  | [], fuel + 1, cur, prev, _, hc => .inl ⟨if_pos hc, fun _ h => nomatch h⟩
  | b :: r, 0, _, _, hf, _ => absurd hf (by simp)
  | b :: r, fuel + 1, cur, prev, hf, hc => by
    obtain ⟨h1, h2, h3, h4⟩ := hc
    subst h1
    by_cases hlt : mem (b.1 + 8) < pad b.1 align + bytes
    · have he : search mem bytes align (fuel + 1) b.1 prev = search mem bytes align fuel (mem b.1) b.1 := by
        show (if b.1 = 0 then _ else if mem (b.1 + 8) < pad b.1 align + bytes then _ else _) = _
        rw [if_neg h2, if_pos hlt]
      rcases search_spec (prev := b.1) (Nat.lt_of_succ_lt_succ hf) h4 with ⟨h5, h6⟩ | ⟨l1, c, l2, h5, h6, h7, h8⟩
      · refine .inl ⟨he.trans h5, fun c hc => ?_⟩
        rcases List.mem_cons.mp hc with rfl | hc
        · rw [← h3]; exact hlt
        · exact h6 c hc
      · refine .inr ⟨b :: l1, c, l2, by rw [h5]; rfl, h6, fun d hd => ?_, ?_⟩
        · rcases List.mem_cons.mp hd with rfl | hd
          · rw [← h3]; exact hlt
          · exact h7 d hd
        · rw [he, h8]; rfl
    · refine .inr ⟨[], b, r, rfl, by omega, (fun _ h => nomatch h), ?_⟩
      show (if b.1 = 0 then _ else if mem (b.1 + 8) < pad b.1 align + bytes then _ else _) = _
      rw [if_neg h2, if_neg hlt]
      rfl

/-- Taking the block after `q` out. -/
theorem Chain.remove {mem : Nat → Nat} {q b : Nat × Nat} {l2 : List (Nat × Nat)} : ∀ {l1 : List (Nat × Nat)} {h : Nat},
    (∀ c ∈ l1 ++ l2, q.1 ≠ c.1 ∧ q.1 ≠ c.1 + 8) → Chain mem h (l1 ++ q :: b :: l2) →
    Chain (upd mem q.1 (mem b.1)) h (l1 ++ q :: l2)
  | [], h, hn, hc => by
    obtain ⟨h1, h2, h3, h4, _, _, h5⟩ := hc
    refine ⟨h1, h2, ?_, ?_⟩
    · rw [← h3]; exact if_neg (by omega)
    · have : upd mem q.1 (mem b.1) q.1 = mem b.1 := if_pos rfl
      rw [this]
      exact Chain.congr (fun c hc => ⟨if_neg (fun e => (hn c hc).1 e.symm), if_neg (fun e => (hn c hc).2 e.symm)⟩) h5
  | a :: l1, h, hn, hc => by
    obtain ⟨h1, h2, h3, h4⟩ := hc
    have ha := hn a List.mem_cons_self
    refine ⟨h1, h2, ?_, ?_⟩
    · rw [← h3]; exact if_neg (fun e => ha.2 e.symm)
    · have : upd mem q.1 (mem b.1) a.1 = mem a.1 := if_neg (fun e => ha.1 e.symm)
      rw [this]
      exact Chain.remove (fun c hc => hn c (List.mem_cons_of_mem _ hc)) h4

/-! ## The invariant of the arena -/

def sizes (l : List (Nat × Nat)) : Nat := (l.map (·.2)).sum

theorem sizes_append (a b : List (Nat × Nat)) : sizes (a ++ b) = sizes a + sizes b := by simp [sizes]
theorem sizes_cons (a : Nat × Nat) (b : List (Nat × Nat)) : sizes (a :: b) = a.2 + sizes b := by simp [sizes]

/-- Free blocks `fb`, regions of clients `cl`, regions of the system `sys`. -/
structure AInv (a : Arena) (fb cl sys : List (Nat × Nat)) : Prop where
  chain : Chain a.mem a.freelist fb
  blk : ∀ b ∈ fb, b.1 % 8 = 0 ∧ 16 ≤ b.2
  disj : ((a.area, a.avail) :: (fb ++ cl)).Pairwise Disj
  inside : ∀ r ∈ (a.area, a.avail) :: (fb ++ cl), 0 < r.2 → Inside r sys
  count : a.freelistBlocks = fb.length
  few : fb.length ≤ kMaxFreelistBlocks
  bytes : a.freelistBytes = sizes fb
  blocks : a.blocks = sys.length % 65536
  apart : sys.Pairwise Disj
  pos : ∀ s ∈ sys, 0 < s.1

/-- Memory of clients is not written. -/
def Frame (mem mem' : Nat → Nat) (cl : List (Nat × Nat)) : Prop := ∀ x, (∃ r ∈ cl, ¬Disj (x, 8) r) → mem' x = mem x

theorem Frame.refl (mem : Nat → Nat) (cl : List (Nat × Nat)) : Frame mem mem cl := fun _ _ => rfl
theorem Frame.trans {m1 m2 m3 : Nat → Nat} {cl : List (Nat × Nat)} (h1 : Frame m1 m2 cl) (h2 : Frame m2 m3 cl) : Frame m1 m3 cl :=
  fun x hx => (h2 x hx).trans (h1 x hx)

/-- Writing into a region that no client has. -/
theorem Frame.upd {mem : Nat → Nat} {cl : List (Nat × Nat)} {p : Nat × Nat} (h : ∀ r ∈ cl, Disj p r) {x v : Nat}
    (h1 : p.1 ≤ x) (h2 : x + 8 ≤ p.1 + p.2) : Frame mem (Arena.upd mem x v) cl := by
  intro y ⟨r, hr, hd⟩
  exact if_neg fun e => hd (by subst e; exact (h r hr).sub h1 h2)

/-- The total of what the counters say. -/
def Arena.total (a : Arena) : Nat := a.allocated + a.unavailable + a.avail + a.freelistBytes

theorem stash_ok {cfg : Cfg} {a : Arena} {fb cl sys : List (Nat × Nat)} (h : AInv a fb cl sys) :
    ∃ fb', AInv (a.stash cfg) fb' cl sys ∧ (a.stash cfg).total = a.total ∧ (a.stash cfg).avail = 0 ∧
      (a.stash cfg).allocated = a.allocated ∧ (a.stash cfg).nonresident = a.nonresident ∧
      Frame a.mem (a.stash cfg).mem cl ∧ (a.stash cfg).unavailable ≤ a.unavailable + a.avail ∧
      (fb' = fb ∨ fb' = (a.area + pad a.area 8, a.avail - pad a.area 8) :: fb) := by
  have hp := pad_spec (area := a.area) (align := 8) (by omega)
  have hd := List.pairwise_cons.mp h.disj
  unfold Arena.stash
  by_cases hc : a.freelistBlocks < kMaxFreelistBlocks ∧ pad a.area 8 + max cfg.spanSize sizeofBlock ≤ a.avail
  · dsimp only
    rw [if_pos hc]
    unfold sizeofBlock at hc
    have h16 : 16 ≤ a.avail - pad a.area 8 := by omega
    obtain ⟨s, hs, hs1, hs2⟩ := h.inside (a.area, a.avail) List.mem_cons_self (by show 0 < a.avail; omega)
    have hpos := h.pos s hs
    dsimp only at hs1 hs2
    have hnb : ∀ c ∈ fb, (c.1 ≠ a.area + pad a.area 8 ∧ c.1 ≠ a.area + pad a.area 8 + 8) ∧
        c.1 + 8 ≠ a.area + pad a.area 8 ∧ c.1 + 8 ≠ a.area + pad a.area 8 + 8 := by
      intro c hc'
      have h1 := hd.1 c (List.mem_append_left _ hc')
      have h2 := (h.blk c hc').2
      have h3 := h1 c.1
      have h4 := h1 (c.1 + 8)
      dsimp only at h3 h4
      omega
    refine ⟨_, ⟨?_, ?_, ?_, ?_, ?_, ?_, ?_, h.blocks, h.apart, h.pos⟩, ?_, rfl, rfl, rfl, ?_, ?_, .inr rfl⟩
    · refine ⟨rfl, by dsimp only; omega, if_pos rfl, ?_⟩
      have : upd (upd a.mem (a.area + pad a.area 8) a.freelist) (a.area + pad a.area 8 + 8) (a.avail - pad a.area 8) (a.area + pad a.area 8) = a.freelist := by
        unfold upd
        rw [if_neg (by omega), if_pos rfl]
      dsimp only
      rw [this]
      refine Chain.congr (fun c hc' => ?_) h.chain
      have := hnb c hc'
      unfold upd
      rw [if_neg this.1.2, if_neg this.1.1, if_neg this.2.2, if_neg this.2.1]
      exact ⟨rfl, rfl⟩
    · intro b hb
      rcases List.mem_cons.mp hb with rfl | hb
      · exact ⟨hp.2, h16⟩
      · exact h.blk b hb
    · refine List.pairwise_cons.mpr ⟨fun r _ => Disj.zero rfl, List.pairwise_cons.mpr ⟨fun r hr => ?_, hd.2⟩⟩
      exact (hd.1 r hr).sub (by dsimp only; omega) (by dsimp only; omega)
    · intro r hr h0
      rcases List.mem_cons.mp hr with rfl | hr
      · exact absurd h0 (Nat.lt_irrefl 0)
      · rcases List.mem_cons.mp hr with rfl | hr
        · exact ⟨s, hs, by dsimp only; omega, by dsimp only; omega⟩
        · exact h.inside r (List.mem_cons_of_mem _ hr) h0
    · dsimp only; rw [h.count]; rfl
    · have := h.count
      show fb.length + 1 ≤ _
      omega
    · rw [sizes_cons]; dsimp only; rw [h.bytes]; omega
    · unfold Arena.total; dsimp only; omega
    · refine Frame.trans (Frame.upd (p := (a.area, a.avail)) (fun r hr => hd.1 r (List.mem_append_right _ hr)) ?_ ?_)
        (Frame.upd (p := (a.area, a.avail)) (fun r hr => hd.1 r (List.mem_append_right _ hr)) ?_ ?_) <;> dsimp only <;> omega
    · dsimp only; omega
  · dsimp only
    rw [if_neg hc]
    refine ⟨fb, ⟨h.chain, h.blk, ?_, ?_, h.count, h.few, h.bytes, h.blocks, h.apart, h.pos⟩, ?_, rfl, rfl, rfl, Frame.refl _ _, Nat.le_refl _, .inl rfl⟩
    · exact List.pairwise_cons.mpr ⟨fun r _ => Disj.zero rfl, hd.2⟩
    · intro r hr h0
      rcases List.mem_cons.mp hr with rfl | hr
      · exact absurd h0 (Nat.lt_irrefl 0)
      · exact h.inside r (List.mem_cons_of_mem _ hr) h0
    · unfold Arena.total; dsimp only; omega

theorem tryPop_ok {a : Arena} {fb cl sys : List (Nat × Nat)} (h : AInv a fb cl sys) (h0 : a.avail = 0) (bytes align : Nat) :
    (a.tryPop bytes align = some (a, none) ∧ ∀ b ∈ fb, b.2 < pad b.1 align + bytes) ∨
    ∃ a' b fb', a.tryPop bytes align = some (a', some b) ∧ AInv { a' with area := b, avail := a'.mem (b + 8) } fb' cl sys ∧
      pad b align + bytes ≤ a'.mem (b + 8) ∧ Arena.total { a' with area := b, avail := a'.mem (b + 8) } = a.total ∧
      Frame a.mem a'.mem cl ∧ a'.allocated = a.allocated ∧ a'.nonresident = a.nonresident ∧ a'.unavailable = a.unavailable := by
  unfold Arena.tryPop
  have hd := List.pairwise_cons.mp h.disj
  rcases search_spec (bytes := bytes) (align := align) (prev := 0) (Nat.lt_succ_of_le h.few) h.chain with ⟨e, h1⟩ | ⟨l1, b, l2, hl, h1, _, e⟩
  · rw [e]; exact .inl ⟨rfl, h1⟩
  · rw [e]
    dsimp only
    right
    have hpw := hd.2
    rw [hl] at hpw
    have hb : b ∈ fb := by rw [hl]; simp
    -- the blocks other than `b`, and the clients, are apart from it
    have hperm : (l1 ++ b :: l2 ++ cl).Perm (b :: (l1 ++ l2 ++ cl)) := by
      rw [List.append_assoc, List.append_assoc]
      exact List.perm_middle
    have hbd := List.pairwise_cons.mp ((hperm.pairwise_iff (fun h => h.symm)).mp hpw)
    have hmemb : a.mem (b.1 + 8) = b.2 := by
      have : ∀ {l : List (Nat × Nat)} {x : Nat}, Chain a.mem x l → ∀ c ∈ l, a.mem (c.1 + 8) = c.2 := by
        intro l
        induction l with
        | nil => intro _ _ c hc; cases hc
        | cons d r ih =>
          intro x hx c hc
          rcases List.mem_cons.mp hc with rfl | hc
          · exact hx.2.2.1
          · exact ih hx.2.2.2 c hc
      exact this h.chain b hb
    have hcnt : a.freelistBlocks = (l1 ++ l2).length + 1 := by rw [h.count, hl]; simp; omega
    have hsz : sizes fb = sizes (l1 ++ l2) + b.2 := by rw [hl]; simp only [sizes_append, sizes_cons]; omega
    have hbytes := h.bytes
    rw [if_neg (by rw [hmemb]; omega)]
    -- the new chain
    have hbk := h.blk b hb
    have key : Chain (if lastOr 0 l1 = 0 then a.mem else upd a.mem (lastOr 0 l1) (a.mem b.1))
        (if lastOr 0 l1 = 0 then a.mem b.1 else a.freelist) (l1 ++ l2) ∧
        (if lastOr 0 l1 = 0 then a.mem else upd a.mem (lastOr 0 l1) (a.mem b.1)) (b.1 + 8) = b.2 ∧
        Frame a.mem (if lastOr 0 l1 = 0 then a.mem else upd a.mem (lastOr 0 l1) (a.mem b.1)) cl := by
      rcases List.eq_nil_or_concat l1 with rfl | ⟨l0, q, rfl⟩
      · simp only [lastOr, if_pos, List.nil_append]
        have hc := h.chain
        rw [hl] at hc
        exact ⟨hc.2.2.2, hmemb, Frame.refl _ _⟩
      · have hq : q ∈ fb := by rw [hl]; simp
        have hqk := h.blk q hq
        have hq0 : q.1 ≠ 0 := by
          obtain ⟨s, hs, h1, _⟩ := h.inside q (List.mem_cons_of_mem _ (List.mem_append_left _ hq)) (by omega)
          have := h.pos s hs
          omega
        rw [List.concat_eq_append] at hl hpw hbd ⊢
        rw [lastOr_concat, if_neg hq0, if_neg hq0]
        have hqb := hbd.1 q (by simp)
        have hqp : (l0 ++ [q] ++ b :: l2 ++ cl).Perm (q :: (l0 ++ b :: l2 ++ cl)) := by
          simp only [List.append_assoc]
          exact List.perm_middle
        have hqd := List.pairwise_cons.mp ((hqp.pairwise_iff (fun h => h.symm)).mp hpw)
        refine ⟨?_, ?_, ?_⟩
        · have hc := h.chain
          rw [hl] at hc
          simp only [List.append_assoc, List.singleton_append] at hc ⊢
          refine Chain.remove (fun c hc' => ?_) hc
          have h2 := hqd.1 c (by
            rw [List.mem_append] at hc'
            rcases hc' with hc' | hc'
            · simp [hc']
            · simp [hc'])
          have h3 := (h.blk c (by
            rw [hl]
            rw [List.mem_append] at hc'
            rcases hc' with hc' | hc'
            · simp [hc']
            · simp [hc'])).2
          have h4 := h2 q.1
          omega
        · have h4 := hqb q.1
          rw [← hmemb]
          exact if_neg (by omega)
        · exact Frame.upd (cl := cl) (p := q) (fun r hr => hqd.1 r (by simp [hr])) (Nat.le_refl _) (by omega)
    refine ⟨_, b.1, l1 ++ l2, rfl, ⟨key.1, ?_, ?_, ?_, ?_, ?_, ?_, h.blocks, h.apart, h.pos⟩, ?_, ?_, key.2.2, rfl, rfl, rfl⟩
    · intro c hc
      refine h.blk c ?_
      rw [hl]
      rcases List.mem_append.mp hc with hc | hc
      · exact List.mem_append_left _ hc
      · exact List.mem_append_right _ (List.mem_cons_of_mem _ hc)
    · dsimp only
      rw [key.2.1]
      exact List.pairwise_cons.mpr hbd
    · dsimp only
      rw [key.2.1]
      intro r hr h00
      refine h.inside r ?_ h00
      have := hperm.mem_iff (a := r)
      rw [← hl] at this
      exact List.mem_cons_of_mem _ (this.mpr hr)
    · dsimp only; omega
    · have := h.few; rw [← h.count] at this; omega
    · dsimp only; rw [hmemb]; omega
    · dsimp only; rw [key.2.1]; exact h1
    · unfold Arena.total
      dsimp only
      rw [key.2.1, hmemb]
      omega

end Verif.Arena
