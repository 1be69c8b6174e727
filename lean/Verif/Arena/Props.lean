import Verif.Arena.Inv
/-! Properties of the arena and of the object allocator: C31. -/
namespace Verif.Arena

/-- No assertion fails and nothing wraps around, in any reachable state. -/
theorem step_defined (cfg : Cfg) (hc : cfg.OK) (w : W) (h : Reach cfg w) (e : Ev) (hp : Pre cfg w e) :
    ∃ w' out, step cfg w e = some (w', out) := by
  obtain ⟨fb, fr, hi⟩ := h.inv hc
  obtain ⟨w', out, _, _, e, _⟩ := step_ok hc hi hp
  exact ⟨w', out, e⟩

/-- What clients have is pairwise disjoint, and inside of what the system gave. -/
theorem clients_disjoint (cfg : Cfg) (hc : cfg.OK) (w : W) (h : Reach cfg w) :
    (w.clients cfg).Pairwise Disj ∧ w.use.Nodup ∧ ∀ r ∈ w.clients cfg, 0 < r.2 → Inside r w.sys := by
  obtain ⟨fb, fr, hi⟩ := h.inv hc
  have hpw := (List.pairwise_append.mp (List.pairwise_append.mp (List.pairwise_cons.mp hi.arena.disj).2).2.1).2.1
  refine ⟨hpw, ?_, ?_⟩
  · have h2 := (List.pairwise_append.mp hpw).2.1
    rw [List.pairwise_map] at h2
    refine h2.imp fun {x y} hd e => ?_
    have := hc.size
    have := hd x
    dsimp only at this
    omega
  · intro r hr h0
    exact hi.arena.inside r (List.mem_cons_of_mem _ (List.mem_append_right _ (List.mem_append_right _ hr))) h0

/-- What an allocation from the arena does: an aligned region of the size asked for, now the client's.  Or, if the
system allocator has no memory, the end of the process. -/
theorem alloc_exact (cfg : Cfg) (hc : cfg.OK) (w : W) (h : Reach cfg w) (bytes align : Nat) (sys : Option (Nat × Nat))
    (hp : Pre cfg w (.alloc bytes align sys)) :
    (sys = none ∧ step cfg w (.alloc bytes align sys) = some (w, ⟨some .oom, true⟩)) ∨
    ∃ w' p asked, step cfg w (.alloc bytes align sys) = some (w', ⟨some (.ptr p), asked⟩) ∧ p % align = 0 ∧ p ≠ 0 ∧
      w'.raw = (p, bytes) :: w.raw ∧ w'.use = w.use ∧ w'.sys = (if asked then sys.toList else []) ++ w.sys ∧
      ∃ ab, ab < align ∧ w'.a.stats.allocated = w.a.stats.allocated + ab + bytes := by
  obtain ⟨fb, fr, hi⟩ := h.inv hc
  obtain ⟨h1, ⟨i, rfl⟩, h2, h3⟩ := hp
  have h3' : SysOK' cfg w.sys bytes (2 ^ i) sys := by cases sys with | none => exact h3 | some pn => exact h3
  rcases alloc_ok hi.arena h1 h2 h3' with ⟨hn, e⟩ | ⟨a', p, asked, e, ha⟩
  · refine .inl ⟨hn, ?_⟩
    show (match w.a.alloc cfg bytes (2 ^ i) sys with | none => none | some (a, .ptr p, asked) => _ | some (_, .oom, asked) => _) = _
    rw [e]
  · refine .inr ⟨{ w with a := a', sys := gave sys asked ++ w.sys, raw := (p, bytes) :: w.raw }, p, asked, ?_, ha.aligned, ha.nonnull, rfl, rfl, rfl, ha.less⟩
    show (match w.a.alloc cfg bytes (2 ^ i) sys with | none => none | some (a, .ptr p, asked) => _ | some (_, .oom, asked) => _) = _
    rw [e]

/-- The system is asked for memory only if the request fits neither into the free area nor into a block of the free
list. -/
theorem asked_needed (cfg : Cfg) (hc : cfg.OK) (w : W) (h : Reach cfg w) (bytes align : Nat) (sys : Option (Nat × Nat))
    (hp : Pre cfg w (.alloc bytes align sys)) (w' : W) (p : Nat)
    (hs : step cfg w (.alloc bytes align sys) = some (w', ⟨some (.ptr p), true⟩)) :
    ∃ fb, Chain w.a.mem w.a.freelist fb ∧ fb.length = w.a.stats.freelistBlocks ∧
      ∀ r ∈ (w.a.area, w.a.avail) :: fb, ∀ q, q % align = 0 → ¬(r.1 ≤ q ∧ q + bytes ≤ r.1 + r.2) := by
  obtain ⟨fb, fr, hi⟩ := h.inv hc
  obtain ⟨h1, ⟨i, rfl⟩, h2, h3⟩ := hp
  have h3' : SysOK' cfg w.sys bytes (2 ^ i) sys := by cases sys with | none => exact h3 | some pn => exact h3
  have hpos : 0 < 2 ^ i := Nat.pow_pos (by omega)
  -- no aligned address before the padded one
  have hfit : ∀ (r : Nat × Nat), r.2 < pad r.1 (2 ^ i) + bytes → ∀ q, q % 2 ^ i = 0 → ¬(r.1 ≤ q ∧ q + bytes ≤ r.1 + r.2) := by
    intro r hr q hq ⟨hl, hu⟩
    have hlt : q < r.1 + pad r.1 (2 ^ i) := by omega
    have hsp := pad_spec (area := r.1) hpos
    obtain ⟨u, hu'⟩ := Nat.dvd_of_mod_eq_zero hq
    obtain ⟨v, hv⟩ := Nat.dvd_of_mod_eq_zero hsp.2
    rw [hv, hu'] at hlt
    have huv : u < v := Nat.lt_of_mul_lt_mul_left hlt
    have : 2 ^ i * (u + 1) ≤ 2 ^ i * v := Nat.mul_le_mul_left _ huv
    rw [Nat.mul_add] at this
    omega
  rcases alloc_ok hi.arena h1 h2 h3' with ⟨hn, e⟩ | ⟨a', p', asked, e, ha⟩
  · have : step cfg w (.alloc bytes (2 ^ i) sys) = some (w, ⟨some .oom, true⟩) := by
      show (match w.a.alloc cfg bytes (2 ^ i) sys with | none => none | some (a, .ptr p, asked) => _ | some (_, .oom, asked) => _) = _
      rw [e]
    rw [this] at hs
    cases hs
  · have : step cfg w (.alloc bytes (2 ^ i) sys) = some ({ w with a := a', sys := gave sys asked ++ w.sys, raw := (p', bytes) :: w.raw }, ⟨some (.ptr p'), asked⟩) := by
      show (match w.a.alloc cfg bytes (2 ^ i) sys with | none => none | some (a, .ptr p, asked) => _ | some (_, .oom, asked) => _) = _
      rw [e]
    rw [this] at hs
    cases hs
    obtain ⟨_, h4, h5⟩ := ha.need rfl
    refine ⟨fb, hi.arena.chain, hi.arena.count.symm, fun r hr => ?_⟩
    rcases List.mem_cons.mp hr with rfl | hr
    · exact hfit _ h4
    · exact hfit r (h5 r hr)

/-- What `New` does: an aligned object that nobody has; while there is a free object, one of those. -/
theorem new_exact (cfg : Cfg) (hc : cfg.OK) (w : W) (h : Reach cfg w) (sys : Option (Nat × Nat)) (hp : Pre cfg w (.new sys)) :
    (sys = none ∧ step cfg w (.new sys) = some (w, ⟨some .oom, true⟩) ∧ w.total = w.inUse) ∨
    ∃ w' p asked, step cfg w (.new sys) = some (w', ⟨some (.ptr p), asked⟩) ∧ p % 2 ^ cfg.oalign = 0 ∧ p ≠ 0 ∧
      p ∉ w.use ∧ w'.use = p :: w.use ∧ w'.raw = w.raw ∧ w'.inUse = w.inUse + 1 ∧
      (w.inUse < w.total → w'.total = w.total ∧ w'.a = w.a ∧ w'.sys = w.sys) ∧
      (w.inUse = w.total → w'.total = w.total + 1) := by
  obtain ⟨fb, fr, hi⟩ := h.inv hc
  have hs := hc.size
  by_cases hh : w.head = 0
  · have hfr : fr = [] := by
      cases fr with
      | nil => rfl
      | cons q r => exact absurd (hi.chain.1.symm.trans hh) hi.chain.2.1
    have ht : w.total = w.inUse := by rw [hi.total, hi.inUse, hfr]; rfl
    have h3' : SysOK' cfg w.sys cfg.osize (2 ^ cfg.oalign) sys := by cases sys with | none => exact hp | some pn => exact hp
    rcases alloc_ok hi.arena (by omega) hc.small h3' with ⟨hn, e⟩ | ⟨a', p, asked, e, ha⟩
    · refine .inl ⟨hn, ?_, ht⟩
      show (if w.head = 0 then match w.a.alloc cfg cfg.osize (2 ^ cfg.oalign) sys with | none => none | some (a, .ptr p, asked) => _ | some (_, .oom, asked) => _ else _) = _
      rw [if_pos hh, e]
    · have hst : step cfg w (.new sys) = some ({ w with a := a', inUse := w.inUse + 1, total := w.total + 1, sys := gave sys asked ++ w.sys, use := p :: w.use }, ⟨some (.ptr p), asked⟩) := by
        show (if w.head = 0 then match w.a.alloc cfg cfg.osize (2 ^ cfg.oalign) sys with | none => none | some (a, .ptr p, asked) => _ | some (_, .oom, asked) => _ else _) = _
        rw [if_pos hh, e]
      have hnd := (clients_disjoint cfg hc _ (Reach.step h hp hst)).2.1
      refine .inr ⟨_, p, asked, hst, ha.aligned, ha.nonnull, (List.nodup_cons.mp hnd).1, rfl, rfl, rfl, ?_, fun _ => rfl⟩
      intro hlt
      omega
  · have hst : step cfg w (.new sys) = some ({ w with head := w.a.mem w.head, inUse := w.inUse + 1, use := w.head :: w.use }, ⟨some (.ptr w.head), false⟩) := if_neg hh
    have hnd := (clients_disjoint cfg hc _ (Reach.step h hp hst)).2.1
    cases fr with
    | nil => exact absurd hi.chain hh
    | cons q r =>
      have hal := hi.aligned q (by simp)
      have h1 := hi.chain.1
      have ht : w.inUse < w.total := by rw [hi.total, hi.inUse]; simp
      refine .inr ⟨_, w.head, false, hst, by rw [h1]; exact hal.1, by rw [h1]; exact hal.2, (List.nodup_cons.mp hnd).1, rfl, rfl, rfl, fun _ => ⟨rfl, rfl, rfl⟩, ?_⟩
      intro heq
      omega

/-- `Delete` and then `New` gives the same object back, and takes nothing from the arena. -/
theorem delete_new (cfg : Cfg) (w w1 w2 : W) (p : Nat) (sys : Option (Nat × Nat)) (out o1 : Out) (hp : p ≠ 0)
    (h1 : step cfg w (.delete p) = some (w1, o1)) (h2 : step cfg w1 (.new sys) = some (w2, out)) :
    out = ⟨some (.ptr p), false⟩ ∧ w2.sys = w.sys ∧ w2.total = w.total := by
  have h1 : (if w.inUse = 0 then none else some _) = some (w1, o1) := h1
  split at h1
  · cases h1
  · cases h1
    have h2 : (if p = 0 then _ else some _) = some (w2, out) := h2
    rw [if_neg hp] at h2
    cases h2
    exact ⟨rfl, rfl, rfl⟩

/-- The allocators never write into what a client has: every word with a byte of such a region is unchanged, unless
clients write themselves or give the region back. -/
theorem contents_kept (cfg : Cfg) (hc : cfg.OK) (w : W) (h : Reach cfg w) (e : Ev) (hp : Pre cfg w e) (he : ∀ m, e ≠ .write m)
    (w' : W) (out : Out) (hs : step cfg w e = some (w', out)) (r : Nat × Nat) (hr : r ∈ w.clients cfg) (hr' : r ∈ w'.clients cfg)
    (x : Nat) (hx : ¬Disj (x, 8) r) : w'.a.mem x = w.a.mem x := by
  obtain ⟨fb, fr, hi⟩ := h.inv hc
  have hreg : r ∈ regions cfg w fr := List.mem_append_right _ hr
  cases e with
  | alloc bytes align sys =>
    obtain ⟨h1, ⟨i, rfl⟩, h2, h3⟩ := hp
    have h3' : SysOK' cfg w.sys bytes (2 ^ i) sys := by cases sys with | none => exact h3 | some pn => exact h3
    have hs : (match w.a.alloc cfg bytes (2 ^ i) sys with
      | none => none
      | some (a, .ptr p, asked) => some (({ w with a := a, sys := gave sys asked ++ w.sys, raw := (p, bytes) :: w.raw } : W), (⟨some (.ptr p), asked⟩ : Out))
      | some (_, .oom, asked) => some (w, ⟨some .oom, asked⟩)) = some (w', out) := hs
    rcases alloc_ok hi.arena h1 h2 h3' with ⟨_, e⟩ | ⟨a', p, asked, e, ha⟩
    · rw [e] at hs; cases hs; rfl
    · rw [e] at hs; cases hs
      exact ha.frame x ⟨r, hreg, hx⟩
  | new sys =>
    have h3' : SysOK' cfg w.sys cfg.osize (2 ^ cfg.oalign) sys := by cases sys with | none => exact hp | some pn => exact hp
    have h8 := hc.size
    have hs : (if w.head = 0 then
      match w.a.alloc cfg cfg.osize (2 ^ cfg.oalign) sys with
      | none => none
      | some (a, .ptr p, asked) =>
        some (({ w with a := a, inUse := w.inUse + 1, total := w.total + 1, sys := gave sys asked ++ w.sys, use := p :: w.use } : W),
          (⟨some (.ptr p), asked⟩ : Out))
      | some (_, .oom, asked) => some (w, ⟨some .oom, asked⟩)
    else
      some ({ w with head := w.a.mem w.head, inUse := w.inUse + 1, use := w.head :: w.use }, ⟨some (.ptr w.head), false⟩)) = some (w', out) := hs
    split at hs
    · rcases alloc_ok hi.arena (by omega) hc.small h3' with ⟨_, e⟩ | ⟨a', p, asked, e, ha⟩
      · rw [e] at hs; cases hs; rfl
      · rw [e] at hs; cases hs
        exact ha.frame x ⟨r, hreg, hx⟩
    · cases hs; rfl
  | delete p =>
    have hpu : p ∈ w.use := hp
    have h8 := hc.size
    have hs : (if w.inUse = 0 then none else some _) = some (w', out) := hs
    split at hs
    · cases hs
    · cases hs
      show upd w.a.mem p w.head x = _
      refine if_neg fun e => hx ?_
      subst e
      -- the region is not the object given back, so that it is disjoint from it
      have hpw := (clients_disjoint cfg hc w h).1
      have hperm : (w.clients cfg).Perm ((x, cfg.osize) :: (w.raw ++ (w.use.erase x).map fun p => (p, cfg.osize))) := by
        have : (obj cfg w.use).Perm ((x, cfg.osize) :: obj cfg (w.use.erase x)) := (List.perm_cons_erase hpu).map _
        show (w.raw ++ obj cfg w.use).Perm ((x, cfg.osize) :: (w.raw ++ obj cfg (w.use.erase x)))
        rw [List.perm_iff_count]
        intro y
        have := this.count_eq y
        simp only [List.count_append, List.count_cons] at this ⊢
        omega
      have := (List.pairwise_cons.mp ((hperm.pairwise_iff (fun h => h.symm)).mp hpw)).1 r hr'
      exact this.sub (Nat.le_refl _) (by dsimp only; omega)
  | update d e =>
    have hs : (w.a.update d e).map (fun a => (({ w with a := a, adj := w.adj + d } : W), (⟨none, false⟩ : Out))) = some (w', out) := hs
    rw [Option.map_eq_some_iff] at hs
    obtain ⟨a, ha, hs⟩ := hs
    cases hs
    unfold Arena.update at ha
    split at ha
    · cases ha
    · cases ha; rfl
  | write m => exact absurd rfl (he m)

/-- The statistics: allocated, unallocated and unavailable bytes add up to what the system gave (and what clients
corrected); the unallocated bytes are the free area and the blocks of the free list; objects in use. -/
theorem stats_exact (cfg : Cfg) (hc : cfg.OK) (w : W) (h : Reach cfg w) :
    ((w.a.stats.allocated + w.a.stats.unallocated + w.a.stats.unavailable : Nat) : Int) = ((w.sys.map (·.2)).sum : Nat) + w.adj ∧
    (∃ fb, Chain w.a.mem w.a.freelist fb ∧ w.a.stats.unallocated = w.a.avail + (fb.map (·.2)).sum ∧ w.a.stats.freelistBlocks = fb.length ∧
      fb.length ≤ 100) ∧
    (w.sys.length < 65536 → w.a.stats.blocks = w.sys.length) ∧ w.inUse = w.use.length := by
  obtain ⟨fb, fr, hi⟩ := h.inv hc
  refine ⟨?_, ⟨fb, hi.arena.chain, ?_, hi.arena.count, hi.arena.few⟩, ?_, hi.inUse⟩
  · have := hi.sum
    unfold Arena.total at this
    show ((w.a.allocated + (w.a.avail + w.a.freelistBytes) + w.a.unavailable : Nat) : Int) = (sizes w.sys : Nat) + w.adj
    omega
  · show w.a.avail + w.a.freelistBytes = _
    rw [hi.arena.bytes]; rfl
  · intro hlt
    have := hi.arena.blocks
    show w.a.blocks = _
    omega

end Verif.Arena
