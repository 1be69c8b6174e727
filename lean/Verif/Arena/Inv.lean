import Verif.Arena.Lemmas
/-! One call of `Alloc`; the invariant of arena and object allocator for every event. -/
namespace Verif.Arena

theorem AInv.perm {a : Arena} {fb cl cl' sys : List (Nat × Nat)} (h : AInv a fb cl sys) (hp : cl.Perm cl') : AInv a fb cl' sys := by
  have hp' : ((a.area, a.avail) :: (fb ++ cl)).Perm ((a.area, a.avail) :: (fb ++ cl')) := (hp.append_left fb).cons _
  exact ⟨h.chain, h.blk, (hp'.pairwise_iff (fun h => h.symm)).mp h.disj, fun r hr => h.inside r (hp'.mem_iff.mpr hr), h.count, h.few, h.bytes, h.blocks, h.apart, h.pos⟩

theorem carve_ok {a : Arena} {fb cl sys : List (Nat × Nat)} (h : AInv a fb cl sys) {bytes align : Nat} (hb : 0 < bytes) (ha : 0 < align)
    (hfit : pad a.area align + bytes ≤ a.avail) :
    ∃ a' p, a.carve bytes align = some (a', p) ∧ AInv a' fb ((p, bytes) :: cl) sys ∧ p % align = 0 ∧ p ≠ 0 ∧ a'.total = a.total ∧
      a'.mem = a.mem ∧ a'.allocated = a.allocated + pad a.area align + bytes ∧ a'.nonresident = a.nonresident ∧ a'.unavailable = a.unavailable := by
  have hp := pad_spec (area := a.area) ha
  unfold Arena.carve
  dsimp only
  rw [if_neg (by omega)]
  obtain ⟨s, hs, hs1, hs2⟩ := h.inside (a.area, a.avail) List.mem_cons_self (by show 0 < a.avail; omega)
  have hpos := h.pos s hs
  dsimp only at hs1 hs2
  have hd := List.pairwise_cons.mp h.disj
  refine ⟨_, _, rfl, ⟨h.chain, h.blk, ?_, ?_, h.count, h.few, h.bytes, h.blocks, h.apart, h.pos⟩, hp.2, by omega, ?_, rfl, rfl, rfl, rfl⟩
  · refine List.pairwise_cons.mpr ⟨fun r hr => ?_, ?_⟩
    · have hr' : r = (a.area + pad a.area align, bytes) ∨ r ∈ fb ++ cl := by
        rcases List.mem_append.mp hr with hr | hr
        · exact .inr (List.mem_append_left _ hr)
        · rcases List.mem_cons.mp hr with rfl | hr
          · exact .inl rfl
          · exact .inr (List.mem_append_right _ hr)
      rcases hr' with rfl | hr'
      · intro x hx; dsimp only at hx; omega
      · exact (hd.1 r hr').sub (by dsimp only; omega) (by dsimp only; omega)
    · refine (List.perm_middle.pairwise_iff (fun h => h.symm)).mpr (List.pairwise_cons.mpr ⟨fun r hr => ?_, hd.2⟩)
      exact (hd.1 r hr).sub (by dsimp only; omega) (by dsimp only; omega)
  · intro r hr h0
    rcases List.mem_cons.mp hr with rfl | hr
    · exact ⟨s, hs, by dsimp only; omega, by dsimp only; omega⟩
    · rcases List.mem_append.mp hr with hr | hr
      · exact h.inside r (List.mem_cons_of_mem _ (List.mem_append_left _ hr)) h0
      · rcases List.mem_cons.mp hr with rfl | hr
        · exact ⟨s, hs, by dsimp only; omega, by dsimp only; omega⟩
        · exact h.inside r (List.mem_cons_of_mem _ (List.mem_append_right _ hr)) h0
  · unfold Arena.total; dsimp only; omega

/-- A fresh region of the system becomes the free area. -/
theorem fresh_ok {a : Arena} {fb cl sys : List (Nat × Nat)} (h : AInv a fb cl sys) {p n : Nat} (hp : 0 < p) (hd : ∀ s ∈ sys, Disj (p, n) s) :
    AInv { a with area := p, avail := n, blocks := (a.blocks + 1) % 65536 } fb cl ((p, n) :: sys) := by
  have hpw := List.pairwise_cons.mp h.disj
  have hap : ∀ r ∈ fb ++ cl, Disj (p, n) r := by
    intro r hr
    by_cases h0 : 0 < r.2
    · obtain ⟨s, hs, h1, h2⟩ := h.inside r (List.mem_cons_of_mem _ hr) h0
      exact ((hd s hs).symm.sub h1 h2).symm
    · exact (Disj.zero (by omega)).symm
  refine ⟨h.chain, h.blk, List.pairwise_cons.mpr ⟨hap, hpw.2⟩, ?_, h.count, h.few, h.bytes, ?_, List.pairwise_cons.mpr ⟨hd, h.apart⟩, ?_⟩
  · intro r hr h0
    rcases List.mem_cons.mp hr with rfl | hr
    · exact ⟨_, List.mem_cons_self, Nat.le_refl _, Nat.le_refl _⟩
    · obtain ⟨s, hs, h1⟩ := h.inside r (List.mem_cons_of_mem _ hr) h0
      exact ⟨s, List.mem_cons_of_mem _ hs, h1⟩
  · have := h.blocks
    show (a.blocks + 1) % 65536 = (sys.length + 1) % 65536
    omega
  · intro s hs
    rcases List.mem_cons.mp hs with rfl | hs
    · exact hp
    · exact h.pos s hs

theorem dvd_ask {cfg : Cfg} {i p : Nat} (h : p % askAlign cfg (2 ^ i) = 0) : p % 2 ^ i = 0 := by
  have hd : 2 ^ i ∣ askAlign cfg (2 ^ i) := by
    unfold askAlign
    by_cases hi : i ≤ cfg.pageShift
    · have : 2 ^ i ≤ 2 ^ cfg.pageShift := Nat.pow_le_pow_right (by omega) hi
      rw [Nat.max_eq_left this]
      exact Nat.pow_dvd_pow 2 hi
    · have : 2 ^ cfg.pageShift ≤ 2 ^ i := Nat.pow_le_pow_right (by omega) (by omega)
      rw [Nat.max_eq_right this]
      exact Nat.dvd_refl _
  exact Nat.mod_eq_zero_of_dvd (Nat.dvd_trans hd (Nat.dvd_of_mod_eq_zero h))

/-- The answer of the system, for the regions it gave before. -/
def SysOK' (cfg : Cfg) (sys : List (Nat × Nat)) (bytes align : Nat) : Option (Nat × Nat) → Prop
  | none => True
  | some (p, n) => 0 < p ∧ askSize bytes ≤ n ∧ p % askAlign cfg align = 0 ∧ ∀ s ∈ sys, Disj (p, n) s

/-- What a successful call of `Alloc` does. -/
structure Alloced (a a' : Arena) (fb cl sys : List (Nat × Nat)) (bytes align p : Nat) (ans : Option (Nat × Nat)) (asked : Bool) : Prop where
  inv : ∃ fb', AInv a' fb' ((p, bytes) :: cl) (gave ans asked ++ sys)
  aligned : p % align = 0
  nonnull : p ≠ 0
  total : a'.total = a.total + sizes (gave ans asked)
  frame : Frame a.mem a'.mem cl
  less : ∃ ab, ab < align ∧ a'.allocated = a.allocated + ab + bytes
  nonres : a'.nonresident = a.nonresident
  need : asked = true → ans ≠ none ∧ a.avail < pad a.area align + bytes ∧ ∀ b ∈ fb, b.2 < pad b.1 align + bytes

theorem alloc_ok {cfg : Cfg} {a : Arena} {fb cl sys : List (Nat × Nat)} (h : AInv a fb cl sys) {bytes i : Nat} {ans : Option (Nat × Nat)}
    (hb : 0 < bytes) (hs : bytes + 2 ^ i < 2 ^ 64) (hans : SysOK' cfg sys bytes (2 ^ i) ans) :
    (ans = none ∧ a.alloc cfg bytes (2 ^ i) ans = some (a, .oom, true)) ∨
    ∃ a' p asked, a.alloc cfg bytes (2 ^ i) ans = some (a', .ptr p, asked) ∧ Alloced a a' fb cl sys bytes (2 ^ i) p ans asked := by
  have hpos : 0 < 2 ^ i := Nat.pow_pos (by omega)
  unfold Arena.alloc
  rw [if_neg (by omega)]
  have hpad : ∀ x, pad x (2 ^ i) < 2 ^ i := fun x => (pad_spec hpos).1
  split
  · rename_i hlt
    unfold Arena.allocSlow
    obtain ⟨fb', hi, ht, h0, hal, hnr, hfr, hun, hfb⟩ := stash_ok (cfg := cfg) h
    rcases tryPop_ok hi h0 bytes (2 ^ i) with ⟨e, hno⟩ | ⟨a1, b, fb2, e, hi2, hfit, ht2, hfr2, hal2, hnr2, _⟩
    · rw [e]
      dsimp only
      cases ans with
      | none => exact .inl ⟨rfl, rfl⟩
      | some pn =>
        obtain ⟨p, n⟩ := pn
        obtain ⟨h1, h2, h3, h4⟩ := hans
        have hask : bytes ≤ askSize bytes := by unfold askSize; split <;> omega
        have hmod := dvd_ask h3
        obtain ⟨a', q, e3, hi3, hal3, hnn, ht3, hm3, hall, hnr3, _⟩ := carve_ok (bytes := bytes) (align := 2 ^ i) (fresh_ok hi h1 h4) hb hpos
          (by rw [show ({ a.stash cfg with area := p, avail := n, blocks := ((a.stash cfg).blocks + 1) % 65536 } : Arena).area = p from rfl, pad_zero hmod]; dsimp only; omega)
        dsimp only
        rw [e3]
        refine .inr ⟨a', q, true, rfl, ⟨fb', hi3⟩, hal3, hnn, ?_, by rw [hm3]; exact hfr, ⟨_, hpad p, by rw [hall]; dsimp only; rw [hal]⟩, by rw [hnr3]; exact hnr, fun _ => ⟨by simp, hlt, fun b hb => ?_⟩⟩
        · rw [ht3]
          show _ + _ + n + _ = a.total + sizes ([(p, n)] ++ [])
          unfold Arena.total at ht ⊢
          simp only [sizes, List.append_nil, List.map_cons, List.map_nil, List.sum_cons, List.sum_nil]
          omega
        · rcases hfb with rfl | rfl
          · exact hno b hb
          · exact hno b (List.mem_cons_of_mem _ hb)
    · rw [e]
      dsimp only
      obtain ⟨a', q, e3, hi3, hal3, hnn, ht3, hm3, hall, hnr3, _⟩ := carve_ok hi2 hb hpos hfit
      rw [e3]
      refine .inr ⟨a', q, false, rfl, ⟨fb2, hi3⟩, hal3, hnn, ?_, by rw [hm3]; exact hfr.trans hfr2, ⟨_, hpad b, by rw [hall]; dsimp only; rw [hal2, hal]⟩, by rw [hnr3]; dsimp only; rw [hnr2, hnr], fun h => nomatch h⟩
      rw [ht3, ht2, ht]; rfl
  · rename_i hge
    obtain ⟨a', q, e3, hi3, hal3, hnn, ht3, hm3, hall, hnr3, _⟩ := carve_ok h hb hpos (by omega)
    rw [e3]
    exact .inr ⟨a', q, false, rfl, ⟨fb, hi3⟩, hal3, hnn, by rw [ht3]; rfl, by rw [hm3]; exact Frame.refl _ _, ⟨_, hpad _, hall⟩, hnr3, fun h => nomatch h⟩

/-! ## The object allocator -/

/-- From `h`, memory holds the free objects `l`. -/
def OChain (mem : Nat → Nat) : Nat → List Nat → Prop
  | h, [] => h = 0
  | h, p :: r => h = p ∧ p ≠ 0 ∧ OChain mem (mem p) r

theorem OChain.congr {mem mem' : Nat → Nat} : ∀ {l : List Nat} {h : Nat}, (∀ p ∈ l, mem' p = mem p) → OChain mem h l → OChain mem' h l
  | [], _, _, hc => hc
  | p :: r, _, he, hc => by
    refine ⟨hc.1, hc.2.1, ?_⟩
    rw [he p List.mem_cons_self]
    exact OChain.congr (fun b hb => he b (List.mem_cons_of_mem _ hb)) hc.2.2

/-- Objects as regions. -/
def obj (cfg : Cfg) (l : List Nat) : List (Nat × Nat) := l.map fun p => (p, cfg.osize)

/-- Regions of clients, and free objects. -/
def regions (cfg : Cfg) (w : W) (fr : List Nat) : List (Nat × Nat) := obj cfg fr ++ w.clients cfg

structure Inv (cfg : Cfg) (w : W) (fb : List (Nat × Nat)) (fr : List Nat) : Prop where
  arena : AInv w.a fb (regions cfg w fr) w.sys
  chain : OChain w.a.mem w.head fr
  aligned : ∀ p ∈ fr ++ w.use, p % 2 ^ cfg.oalign = 0 ∧ p ≠ 0
  inUse : w.inUse = w.use.length
  total : w.total = w.use.length + fr.length
  sum : (w.a.total : Int) = sizes w.sys + w.adj

theorem Inv.word {cfg : Cfg} (hc : cfg.OK) {w : W} {fb : List (Nat × Nat)} {fr : List Nat} (h : Inv cfg w fb fr) {p : Nat} (hp : p ∈ fr ++ w.use) : p % 8 = 0 := by
  have h1 := (h.aligned p hp).1
  have h2 : (8 : Nat) ∣ 2 ^ cfg.oalign := Nat.pow_dvd_pow 2 hc.align
  exact Nat.mod_eq_zero_of_dvd (Nat.dvd_trans h2 (Nat.dvd_of_mod_eq_zero h1))

theorem meets {cfg : Cfg} (hc : cfg.OK) (p : Nat) : ¬Disj (p, 8) (p, cfg.osize) := by
  have := hc.size
  intro h
  have := h p
  dsimp only at this
  omega

theorem mem_obj {cfg : Cfg} {l : List Nat} {p : Nat} (h : p ∈ l) : (p, cfg.osize) ∈ obj cfg l := List.mem_map.mpr ⟨p, h, rfl⟩

/-- What an event does to memory of clients that keep it. -/
def Kept (cfg : Cfg) (w w' : W) : Prop := ∀ x, (∃ r ∈ w.clients cfg, ¬Disj (x, 8) r) → w'.a.mem x = w.a.mem x

theorem step_ok {cfg : Cfg} (hc : cfg.OK) {w : W} {fb : List (Nat × Nat)} {fr : List Nat} (h : Inv cfg w fb fr) {e : Ev} (hp : Pre cfg w e) :
    ∃ w' out fb' fr', step cfg w e = some (w', out) ∧ Inv cfg w' fb' fr' := by
  cases e with
  | alloc bytes align sys =>
    obtain ⟨h1, ⟨i, rfl⟩, h2, h3⟩ := hp
    have h3' : SysOK' cfg w.sys bytes (2 ^ i) sys := by cases sys with | none => exact h3 | some pn => exact h3
    rcases alloc_ok h.arena h1 h2 h3' with ⟨_, e⟩ | ⟨a', p, asked, e, ha⟩
    · refine ⟨w, ⟨some .oom, true⟩, fb, fr, ?_, h⟩
      show (match w.a.alloc cfg bytes (2 ^ i) sys with | none => none | some (a, .ptr p, asked) => _ | some (_, .oom, asked) => _) = _
      rw [e]
    · obtain ⟨fb', hi⟩ := ha.inv
      refine ⟨{ w with a := a', sys := gave sys asked ++ w.sys, raw := (p, bytes) :: w.raw }, ⟨some (.ptr p), asked⟩, fb', fr, ?_, ⟨?_, ?_, h.aligned, h.inUse, h.total, ?_⟩⟩
      · show (match w.a.alloc cfg bytes (2 ^ i) sys with | none => none | some (a, .ptr p, asked) => _ | some (_, .oom, asked) => _) = _
        rw [e]
      · exact hi.perm List.perm_middle.symm
      · refine OChain.congr (fun q hq => ?_) h.chain
        exact ha.frame q ⟨_, List.mem_append_left _ (mem_obj hq), meets hc q⟩
      · have := h.sum
        have := ha.total
        show (a'.total : Int) = sizes (gave sys asked ++ w.sys) + w.adj
        rw [sizes_append]
        omega
  | new sys =>
    by_cases hh : w.head = 0
    · have h3' : SysOK' cfg w.sys cfg.osize (2 ^ cfg.oalign) sys := by cases sys with | none => exact hp | some pn => exact hp
      have hs := hc.size
      rcases alloc_ok h.arena (by omega) hc.small h3' with ⟨_, e⟩ | ⟨a', p, asked, e, ha⟩
      · refine ⟨w, ⟨some .oom, true⟩, fb, fr, ?_, h⟩
        show (if w.head = 0 then match w.a.alloc cfg cfg.osize (2 ^ cfg.oalign) sys with | none => none | some (a, .ptr p, asked) => _ | some (_, .oom, asked) => _ else _) = _
        rw [if_pos hh, e]
      · obtain ⟨fb', hi⟩ := ha.inv
        have hfr : fr = [] := by
          cases fr with
          | nil => rfl
          | cons q r => exact absurd (h.chain.1.symm.trans hh) h.chain.2.1
        subst hfr
        refine ⟨{ w with a := a', inUse := w.inUse + 1, total := w.total + 1, sys := gave sys asked ++ w.sys, use := p :: w.use }, ⟨some (.ptr p), asked⟩, fb', [], ?_, ⟨?_, hh, ?_, ?_, ?_, ?_⟩⟩
        · show (if w.head = 0 then match w.a.alloc cfg cfg.osize (2 ^ cfg.oalign) sys with | none => none | some (a, .ptr p, asked) => _ | some (_, .oom, asked) => _ else _) = _
          rw [if_pos hh, e]
        · refine hi.perm ?_
          show ((p, cfg.osize) :: (w.raw ++ obj cfg w.use)).Perm (w.raw ++ (p, cfg.osize) :: obj cfg w.use)
          exact List.perm_middle.symm
        · intro q hq
          rcases List.mem_cons.mp hq with rfl | hq
          · exact ⟨ha.aligned, ha.nonnull⟩
          · exact h.aligned q hq
        · show w.inUse + 1 = _; rw [h.inUse]; rfl
        · show w.total + 1 = _; rw [h.total]; rfl
        · have := h.sum
          have := ha.total
          show (a'.total : Int) = sizes (gave sys asked ++ w.sys) + w.adj
          rw [sizes_append]
          omega
    · cases fr with
      | nil => exact absurd h.chain hh
      | cons q r =>
        obtain ⟨h1, h2, h3⟩ := h.chain
        refine ⟨{ w with head := w.a.mem w.head, inUse := w.inUse + 1, use := w.head :: w.use }, ⟨some (.ptr w.head), false⟩, fb, r, if_neg hh, ⟨?_, ?_, ?_, ?_, ?_, h.sum⟩⟩
        · rw [h1]
          refine h.arena.perm ?_
          show (([(q, cfg.osize)] ++ obj cfg r) ++ (w.raw ++ obj cfg w.use)).Perm (obj cfg r ++ (w.raw ++ ([(q, cfg.osize)] ++ obj cfg w.use)))
          rw [List.perm_iff_count]
          intro x
          simp only [List.count_append]
          omega
        · show OChain w.a.mem (w.a.mem w.head) r
          rw [h1]; exact h3
        · intro x hx
          refine h.aligned x ?_
          rw [h1] at hx
          simp only [List.mem_append, List.mem_cons] at hx ⊢
          rcases hx with hx | hx | hx
          · exact .inl (.inr hx)
          · exact .inl (.inl hx)
          · exact .inr hx
        · show w.inUse + 1 = _; rw [h.inUse]; rfl
        · show w.total = w.use.length + 1 + r.length
          have := h.total
          simp only [List.length_cons] at this
          omega
  | delete p =>
    have hp : p ∈ w.use := hp
    have hlen : 0 < w.use.length := List.length_pos_of_mem hp
    have hin := h.inUse
    have hpe := List.perm_cons_erase hp
    have hal := h.aligned p (List.mem_append_right _ hp)
    have hs := hc.size
    -- everything else is apart from the object
    have hpm : ((w.a.area, w.a.avail) :: (fb ++ regions cfg w fr)).Perm
        ((p, cfg.osize) :: ((w.a.area, w.a.avail) :: (fb ++ (obj cfg fr ++ (w.raw ++ obj cfg (w.use.erase p)))))) := by
      have : (obj cfg w.use).Perm ((p, cfg.osize) :: obj cfg (w.use.erase p)) := hpe.map _
      rw [List.perm_iff_count]
      intro x
      have := this.count_eq x
      unfold regions W.clients
      show List.count x (_ :: (fb ++ (obj cfg fr ++ (w.raw ++ obj cfg w.use)))) = _
      simp only [List.count_append, List.count_cons] at this ⊢
      omega
    have hdp := List.pairwise_cons.mp ((hpm.pairwise_iff (fun h => h.symm)).mp h.arena.disj)
    refine ⟨{ w with a := { w.a with mem := upd w.a.mem p w.head }, head := p, inUse := w.inUse - 1, use := w.use.erase p }, ⟨none, false⟩, fb, p :: fr, if_neg (by omega), ⟨?_, ?_, ?_, ?_, ?_, h.sum⟩⟩
    · have h1 : AInv w.a fb (regions cfg { w with a := { w.a with mem := upd w.a.mem p w.head }, head := p, inUse := w.inUse - 1, use := w.use.erase p } (p :: fr)) w.sys := by
        refine h.arena.perm ?_
        have : (obj cfg w.use).Perm ((p, cfg.osize) :: obj cfg (w.use.erase p)) := hpe.map _
        show (obj cfg fr ++ (w.raw ++ obj cfg w.use)).Perm ((p, cfg.osize) :: (obj cfg fr ++ (w.raw ++ obj cfg (w.use.erase p))))
        rw [List.perm_iff_count]
        intro x
        have := this.count_eq x
        simp only [List.count_append, List.count_cons] at this ⊢
        omega
      refine ⟨Chain.congr (fun b hb => ?_) h1.chain, h1.blk, h1.disj, h1.inside, h1.count, h1.few, h1.bytes, h1.blocks, h1.apart, h1.pos⟩
      have hd := hdp.1 b (List.mem_cons_of_mem _ (List.mem_append_left _ hb))
      have hk := (h1.blk b hb).2
      have := hd p
      dsimp only at this
      have h2 := hd b.1
      dsimp only at h2
      exact ⟨if_neg (by omega), if_neg (by omega)⟩
    · refine ⟨rfl, hal.2, ?_⟩
      show OChain (upd w.a.mem p w.head) (upd w.a.mem p w.head p) fr
      rw [show upd w.a.mem p w.head p = w.head from if_pos rfl]
      refine OChain.congr (fun q hq => if_neg fun e => ?_) h.chain
      subst e
      have := hdp.1 (q, cfg.osize) (List.mem_cons_of_mem _ (List.mem_append_right _ (List.mem_append_left _ (mem_obj hq)))) q
      dsimp only at this
      omega
    · intro x hx
      refine h.aligned x ?_
      simp only [List.cons_append, List.mem_cons, List.mem_append] at hx ⊢
      rcases hx with rfl | hx | hx
      · exact .inr hp
      · exact .inl hx
      · exact .inr (List.mem_of_mem_erase hx)
    · show w.inUse - 1 = (w.use.erase p).length
      rw [List.length_erase_of_mem hp]; omega
    · show w.total = (w.use.erase p).length + (fr.length + 1)
      rw [List.length_erase_of_mem hp, h.total]; omega
  | update d e =>
    obtain ⟨h1, h2⟩ := hp
    have he : w.a.update d e = some { w.a with allocated := ((w.a.allocated : Int) + d).toNat, nonresident := ((w.a.nonresident : Int) + e).toNat } :=
      if_neg (by omega)
    refine ⟨{ w with a := { w.a with allocated := ((w.a.allocated : Int) + d).toNat, nonresident := ((w.a.nonresident : Int) + e).toNat }, adj := w.adj + d }, ⟨none, false⟩, fb, fr, ?_, ⟨?_, h.chain, h.aligned, h.inUse, h.total, ?_⟩⟩
    · show (w.a.update d e).map _ = _
      rw [he]; rfl
    · have := h.arena
      exact ⟨this.chain, this.blk, this.disj, this.inside, this.count, this.few, this.bytes, this.blocks, this.apart, this.pos⟩
    · have := h.sum
      unfold Arena.total at this ⊢
      dsimp only
      omega
  | write mem =>
    have hp : ∀ x, x % 8 = 0 → (∀ r ∈ w.clients cfg, Disj (x, 8) r) → mem x = w.a.mem x := hp
    refine ⟨{ w with a := { w.a with mem := mem } }, ⟨none, false⟩, fb, fr, rfl, ⟨?_, ?_, h.aligned, h.inUse, h.total, h.sum⟩⟩
    · have h1 := h.arena
      have hpw := (List.pairwise_cons.mp h1.disj).2
      have hd := (List.pairwise_append.mp hpw).2.2
      refine ⟨Chain.congr (fun b hb => ?_) h1.chain, h1.blk, h1.disj, h1.inside, h1.count, h1.few, h1.bytes, h1.blocks, h1.apart, h1.pos⟩
      obtain ⟨hk1, hk2⟩ := h1.blk b hb
      refine ⟨hp _ hk1 fun r hr => ?_, hp _ (by omega) fun r hr => ?_⟩
      · exact (hd b hb r (List.mem_append_right _ hr)).sub (Nat.le_refl _) (by dsimp only; omega)
      · exact (hd b hb r (List.mem_append_right _ hr)).sub (by dsimp only; omega) (by dsimp only; omega)
    · refine OChain.congr (fun q hq => ?_) h.chain
      refine hp q (h.word hc (List.mem_append_left _ hq)) fun r hr => ?_
      have hpw := (List.pairwise_append.mp (List.pairwise_cons.mp h.arena.disj).2).2.1
      have hs := hc.size
      exact ((List.pairwise_append.mp hpw).2.2 _ (mem_obj hq) r hr).sub (Nat.le_refl _) (by dsimp only; omega)

theorem init_Inv (cfg : Cfg) (mem : Nat → Nat) : Inv cfg (W.init mem) [] [] := by
  refine ⟨⟨rfl, (fun _ h => nomatch h), List.pairwise_cons.mpr ⟨(fun _ h => nomatch h), .nil⟩, ?_, rfl, Nat.zero_le _, rfl, rfl, .nil, (fun _ h => nomatch h)⟩, rfl, (fun _ h => nomatch h), rfl, rfl, rfl⟩
  intro r hr h0
  rcases List.mem_cons.mp hr with rfl | hr
  · exact absurd h0 (Nat.lt_irrefl 0)
  · cases hr

theorem Reach.inv {cfg : Cfg} (hc : cfg.OK) {w : W} (h : Reach cfg w) : ∃ fb fr, Inv cfg w fb fr := by
  induction h with
  | init mem => exact ⟨[], [], init_Inv cfg mem⟩
  | step _ hp hs ih =>
    obtain ⟨fb, fr, hi⟩ := ih
    obtain ⟨w', out, fb', fr', e, hi'⟩ := step_ok hc hi hp
    rw [e] at hs
    cases hs
    exact ⟨fb', fr', hi'⟩

end Verif.Arena
