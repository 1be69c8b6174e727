import Verif.ThreadHeap.Props
import Verif.Frontend.HistoryProps
/-!
The entry points (`Verif/Frontend`) on the composed heap in per-thread mode (`Verif/ThreadHeap`).  In `Verif/Frontend` the back end is a contract
(`Ans.OK`); here the answers are what the composed heap has handed out, and the contract is proved.

A joint state has both states and, for every block users know of, the block of the heap it lies in.  Steps of the heap are
steps of their own, so a call is spread over many of them: an entry point takes a block the heap has handed out to a thread
and gives it to its caller; it takes a block back from its caller, and a later step of the heap frees it.  In between the block
is in the hands of the entry point, which may write to it (`calloc`, `realloc`) or free it at once (sampling, where an object
has been allocated and is replaced by a run of pages; allocation_sampling.h:85-245).
-/
namespace Verif.ThreadHeap
open Verif.Span (Geo Mem IsObj)
open Verif.PageHeap (HP Run)
open Verif.HugeAddressMap (Rng Cov)
open Verif.Frontend (Env Pol Ans GState setReq FreeMatches Kind Dest fastAlloc)
open Verif.SizeMap (getSizeClass bytesToLengthCeil)
open Verif.MemoryTag (getMemoryTag tagFromSizeClass Tag)

/-- A byte of memory (little endian). -/
def byte (w : Mem) (a : Nat) : UInt8 := UInt8.ofNat (if a % 2 = 0 then w (a / 2) else w (a / 2) / 256)

/-- Memory after a store of one byte. -/
def setByte (w : Mem) (a : Nat) (v : UInt8) : Mem := fun x =>
  if x = a / 2 then (if a % 2 = 0 then w x / 256 * 256 + v.toNat else w x % 256 + 256 * v.toNat) else w x

/-- The two configurations are of one build: page size, sizes of classes, their tags (central_freelist.cc:52-60). -/
structure Conf (env : Env) (cfg : Cfg) : Prop where
  /-- class 0 is no class (sizemap.cc:159-161) -/
  zero : ∀ k, cfg.tc.Used k → 0 < k
  ps : env.cfg.pageShift = cfg.ps
  size : ∀ k, cfg.tc.Used k → env.maps.classToSize[k]? = some (cfg.geo k).size
  tag : ∀ k, cfg.tc.Used k → ∃ t, tagFromSizeClass env.cfg env.activeParts k = some t ∧ cfg.tag k = t.val

/-- The bytes of hugepage `q` carry tag `t` and are addresses of 48 bits. -/
def TagOK (cfg : Cfg) (t q : Nat) : Prop := ∀ a, a / 2 ^ cfg.ps / cfg.N = q → getMemoryTag a = t ∧ a < 2 ^ 48

/-- What the system gives the page heap of a tag carries the tag (C36, C37). -/
def SysTag (cfg : Cfg) : Ev → Prop
  | .page t e _ _ => ∀ r ∈ e.sys, ∀ q, r.Has q → TagOK cfg t q
  | _ => True

/-- The answer to a request is block `B`, which the heap has handed out: an object of the class of the request, in the span
the page map gives for it; for a sampled request, a run of pages of the tag for sampled blocks, as long as an object of the class
(allocation_sampling.h:152-164); for a large request, a run of pages of the tag of the request, as long as it and aligned
(tcmalloc.cc:632-660; `PageHeap.newAligned_exact`). -/
inductive Placed (env : Env) (cfg : Cfg) (h : Heap) (p : Pol) (size : Nat) : Block → Ans → Prop
  | cached (c o : Nat) (r : Run) (sb : Nat) (l : Frontend.LargeAns)
      (hc : getSizeClass env.cfg env.maps p.sm size = some (.small c)) (hu : (c, o) ∈ h.tc.user)
      (hr : (Owner.lent c, r) ∈ h.led) (ho : IsObj (CentralFreeList.spanAt (cfg.geo c) r.p) o) :
      Placed env cfg h p size (objBlock cfg (c, o)) ⟨.cached o (r.p * 2 ^ cfg.ps) sb, l, byte h.mem⟩
  | own (c n : Nat) (r : Run) (l : Frontend.LargeAns)
      (hc : getSizeClass env.cfg env.maps p.sm size = some (.small c)) (hn : env.maps.classToSize[c]? = some n)
      (hr : (Owner.big (Frontend.sampledTag env p).val, r) ∈ h.led) (hrn : r.n = bytesToLengthCeil env.cfg n) :
      Placed env cfg h p size (runBlock cfg r) ⟨.ownSpan (r.p * 2 ^ cfg.ps), l, byte h.mem⟩
  | pages (t : Tag) (r : Run) (sampled : Bool) (m : Frontend.SmallAns)
      (hc : getSizeClass env.cfg env.maps p.sm size = some .large) (ht : Frontend.largeTag env p = some t)
      (hr : (Owner.big t.val, r) ∈ h.led) (hn : r.n = max (bytesToLengthCeil env.cfg size) 1)
      (hal : p.kind.align ∣ r.p * 2 ^ cfg.ps) :
      Placed env cfg h p size (runBlock cfg r) ⟨m, .pages (r.p * 2 ^ cfg.ps) sampled, byte h.mem⟩

/-- `bk b`: the block of the heap in which `b` lies. -/
structure Joint where
  f : GState
  h : Heap
  bk : Frontend.Block → Block

/-- What can happen: a step of the heap that frees no block users know of (the entry points write to no such block
either); an allocation is answered, or fails; a block is taken back by an unsized or a sized free; a user writes. -/
inductive JStep (env : Env) (cfg : Cfg) : Joint → Option Nat → Joint → Prop
  | back {s : Joint} (e : Ev) (h' : Heap) (o : Out) (hp : Pre cfg s.h e) (hsys : SysTag cfg e)
      (hs : step cfg s.h e = some (h', o)) (hf : ∀ b ∈ s.f.heap.live, s.bk b ∉ e.freed cfg)
      (hw : ∀ w, e = .write w → ∀ b ∈ s.f.heap.live, ∀ a, b.Has env a → byte w a = byte s.h.mem a) :
      JStep env cfg s none { s with h := h' }
  | alloc {s : Joint} (p : Pol) (size : Nat) (B : Block) (ans : Ans) (f' : Frontend.Heap) (b : Frontend.Block) (cap : Nat)
      (hp : p.Valid env) (hsz : size < 2 ^ 64) (hB : Placed env cfg s.h p size B ans) (hne : ∀ b ∈ s.f.heap.live, s.bk b ≠ B)
      (hr : fastAlloc env p s.f.heap size ans = .ok (f', some (b, cap))) :
      JStep env cfg s none ⟨⟨f', setReq s.f.req b (p, size)⟩, s.h, fun x => if x = b then B else s.bk x⟩
  | fail {s : Joint} (p : Pol) (size : Nat) (f' : Frontend.Heap) (hp : p.Valid env)
      (hr : fastAlloc env p s.f.heap size ⟨.null, .null, byte s.h.mem⟩ = .ok (f', none)) :
      JStep env cfg s none { s with f := ⟨f', s.f.req⟩ }
  | free {s : Joint} (k : Kind) (b : Frontend.Block) (f' : Frontend.Heap) (d : Dest) (hb : b ∈ s.f.heap.live)
      (hk : FreeMatches k (s.f.req b).1.kind) (hr : Frontend.free env k s.f.heap b = .ok (f', d)) :
      JStep env cfg s none { s with f := ⟨f', s.f.req⟩ }
  | freeSized {s : Joint} (q : Pol) (b : Frontend.Block) (f' : Frontend.Heap) (d : Dest) (hb : b ∈ s.f.heap.live)
      (hk : q.kind = (s.f.req b).1.kind) (hr : Frontend.freeSized env q s.f.heap (s.f.req b).2 b = .ok (f', d)) :
      JStep env cfg s none { s with f := ⟨f', s.f.req⟩ }
  | write {s : Joint} (b : Frontend.Block) (a : Nat) (v : UInt8) (hb : b ∈ s.f.heap.live) (ha : b.Has env a) :
      JStep env cfg s (some a)
        { s with f := ⟨{ s.f.heap with mem := fun x => if x = a then v else s.f.heap.mem x }, s.f.req⟩
                 h := s.h.setMem (setByte s.h.mem a v) }

inductive JReach (env : Env) (cfg : Cfg) : Joint → Prop
  | init (s : Joint) (hf : s.f.heap.live = []) (hr : Reach cfg s.h) (h0 : ∀ t, s.h.ob t = []) : JReach env cfg s
  | step {s s' : Joint} {e : Option Nat} (h : JReach env cfg s) (hs : JStep env cfg s e s') : JReach env cfg s'

/-! ### Bytes -/

theorem byte_set (w : Mem) (a : Nat) (v : UInt8) : byte (setByte w a v) a = v := by
  unfold byte setByte
  have hv : v.toNat < 256 := v.toNat_lt
  rw [if_pos rfl]
  apply UInt8.toNat_inj.1
  rw [UInt8.toNat_ofNat']
  split <;> omega

theorem byte_set_ne (w : Mem) {a x : Nat} (v : UInt8) (hx : x ≠ a) : byte (setByte w a v) x = byte w x := by
  unfold byte setByte
  have hv : v.toNat < 256 := v.toNat_lt
  by_cases h2 : x / 2 = a / 2
  · rw [if_pos h2]
    apply UInt8.toNat_inj.1
    rw [UInt8.toNat_ofNat', UInt8.toNat_ofNat']
    split <;> split <;> omega
  · rw [if_neg h2]

theorem byte_congr {w w' : Mem} {a : Nat} (h : w (a / 2) = w' (a / 2)) : byte w a = byte w' a := by
  unfold byte; rw [h]

variable {env : Env} {cfg : Cfg}

theorem step_obtained {h h' : Heap} {e : Ev} {o : Out} (hs : step cfg h e = some (h', o)) {t q : Nat} (hq : Cov (h'.ob t) q) :
    Cov (h.ob t) q ∨ ∃ e' who w, e = .page t e' who w ∧ ∃ r ∈ e'.sys, r.Has q := by
  have tier : ∀ {h0 h1 : Heap} {k e o'}, h0.onTier cfg k e = some (h1, o') → h1.ob = h0.ob := by
    intro h0 h1 k e o' hs
    unfold Heap.onTier at hs
    obtain ⟨⟨y, o'⟩, -, h2⟩ := Option.map_eq_some_iff.1 hs
    cases h2; rfl
  have del : ∀ {h0 h1 : Heap} {th l o'}, h0.deliver cfg th l = some (h1, o') → h1.ob = h0.ob := by
    intro h0 h1 th l o' hs
    unfold Heap.deliver at hs
    obtain ⟨⟨y, o'⟩, -, h2⟩ := Option.map_eq_some_iff.1 hs
    cases h2; rfl
  have same : h'.ob = h.ob → _ := fun he => (Or.inl (he ▸ hq) : Cov (h.ob t) q ∨
    ∃ e' who w, e = .page t e' who w ∧ ∃ r ∈ e'.sys, r.Has q)
  cases e with
  | tc e i b =>
    simp only [step] at hs
    obtain ⟨⟨c, o'⟩, -, h2⟩ := Option.bind_eq_some_iff.1 hs
    apply same
    split at h2
    · obtain ⟨⟨h1, o1⟩, h3, h4⟩ := Option.map_eq_some_iff.1 h2
      cases h4; rw [tier h3]
    · cases h2; rfl
  | ask th i a b =>
    simp only [step] at hs
    obtain ⟨⟨k, n⟩, -, h2⟩ := Option.bind_eq_some_iff.1 hs
    obtain ⟨⟨h1, o1⟩, h3, h4⟩ := Option.bind_eq_some_iff.1 h2
    apply same
    dsimp only at h4
    split at h4
    · rw [del h4, tier h3]
    · cases h4; exact (tier h3 :)
  | answer k j run =>
    simp only [step] at hs
    obtain ⟨th, -, h2⟩ := Option.bind_eq_some_iff.1 hs
    obtain ⟨⟨h1, o1⟩, h3, h4⟩ := Option.bind_eq_some_iff.1 h2
    apply same
    rw [del h4, ← tier h3]
  | tier k e =>
    simp only [step] at hs
    obtain ⟨⟨h1, o1⟩, h3, h4⟩ := Option.map_eq_some_iff.1 hs
    cases h4
    exact same (tier h3)
  | page t0 e who w =>
    simp only [step] at hs
    obtain ⟨⟨s, r⟩, h3, h4⟩ := Option.map_eq_some_iff.1 hs
    cases h4
    have hq' : Cov (upd h.ob t0 (r.got ++ h.ob t0) t) q := hq
    by_cases ht : t = t0
    · subst ht
      rw [show upd h.ob t (r.got ++ h.ob t) t = r.got ++ h.ob t from if_pos rfl] at hq'
      obtain ⟨x, hx, hxq⟩ := hq'
      rcases List.mem_append.1 hx with hx | hx
      · right; exact ⟨e, who, w, rfl, x, PageHeap.step_got h3 x hx, hxq⟩
      · left; exact ⟨x, hx, hxq⟩
    · rw [show upd h.ob t0 (r.got ++ h.ob t0) t = h.ob t from if_neg ht] at hq'
      exact Or.inl hq'
  | write w => cases hs; exact same rfl
  | link w => cases hs; exact same rfl
  | kernel w => cases hs; exact same rfl

/-! ### The two levels agree -/

/-- Every block users know of lies in a block the heap has handed out, different ones in different ones; both levels agree
on its bytes; what the page heaps have carries their tags. -/
structure Sim (env : Env) (cfg : Cfg) (s : Joint) : Prop where
  within : ∀ b ∈ s.f.heap.live, s.bk b ∈ s.h.live cfg ∧ b.addr = (s.bk b).addr ∧ ∀ a, b.Has env a → a < (s.bk b).addr + (s.bk b).size
  ne : s.f.heap.live.Pairwise fun b b' => s.bk b ≠ s.bk b'
  mem : ∀ b ∈ s.f.heap.live, ∀ a, b.Has env a → s.f.heap.mem a = byte s.h.mem a
  tag : ∀ t q, Cov (s.h.ob t) q → TagOK cfg t q

theorem pairwise_of_ne {α : Type} {R : α → α → Prop} (hsym : ∀ x y, R x y → R y x) : ∀ {l : List α}, l.Pairwise R →
    ∀ {x y}, x ∈ l → y ∈ l → x ≠ y → R x y
  | _ :: _, .cons ha hl, x, y, hx, hy, hne => by
    rcases List.mem_cons.1 hx with h1 | h1 <;> rcases List.mem_cons.1 hy with h2 | h2
    · exact absurd (h1.trans h2.symm) hne
    · rw [h1]; exact ha y h2
    · rw [h2]; exact hsym _ _ (ha x h1)
    · exact pairwise_of_ne hsym hl h1 h2 hne

theorem live_apart (hc : cfg.OK) {h : Heap} (r : Reach cfg h) {B C : Block} (hB : B ∈ h.live cfg) (hC : C ∈ h.live cfg)
    (hne : B ≠ C) : B.Apart C :=
  pairwise_of_ne (fun _ _ h => Or.comm.1 h) (live_blocks_disjoint hc r).1 hB hC hne

theorem live_even (hc : cfg.OK) {h : Heap} (r : Reach cfg h) {B : Block} (hB : B ∈ h.live cfg) : B.addr % 2 = 0 := by
  have hev : ∀ x, x * 2 ^ cfg.ps % 2 = 0 := fun x => by
    obtain ⟨n, hn⟩ : ∃ n, cfg.ps = n + 1 := ⟨cfg.ps - 1, by have := hc.ps; omega⟩
    rw [hn, Nat.pow_succ, ← Nat.mul_assoc]
    exact Nat.mul_mod_left _ _
  rcases (r.inv hc).block hc hB with ⟨k, o, x, rfl, -, hu, -, hr, hn, ho⟩ | ⟨t, x, rfl, hr⟩
  · obtain ⟨i, -, rfl⟩ := ho
    obtain ⟨g, hs⟩ := hc.geo k hu
    have e1 : (CentralFreeList.spanAt (cfg.geo k) x.p).start = x.p * 2 ^ cfg.ps := by
      unfold CentralFreeList.spanAt Geo.start Geo.pageSize
      show x.p * 2 ^ (cfg.geo k).pageShift = _
      rw [hs]
    have e2 : (CentralFreeList.spanAt (cfg.geo k) x.p).size = (cfg.geo k).size := rfl
    show (_ + _) % 2 = 0
    rw [e1, e2]
    have h1 := hev x.p
    have h2 := g.size8
    obtain ⟨m, hm⟩ : ∃ m, (cfg.geo k).size = 2 * m := ⟨(cfg.geo k).size / 2, by omega⟩
    have h3 : i * (cfg.geo k).size % 2 = 0 := by rw [hm, Nat.mul_left_comm]; exact Nat.mul_mod_right _ _
    omega
  · exact hev x.p

/-- The bytes of a run that is out carry its tag. -/
theorem run_tag (hc : cfg.OK) {h : Heap} (r : Reach cfg h) (ht : ∀ t q, Cov (h.ob t) q → TagOK cfg t q) {w : Owner}
    {x : Run} (hx : (w, x) ∈ h.led) {a : Nat} (ha : x.p * 2 ^ cfg.ps ≤ a) (ha' : a < (x.p + x.n) * 2 ^ cfg.ps) :
    getMemoryTag a = w.tag cfg ∧ 0 < a ∧ a < 2 ^ 48 := by
  have hp : x.Has (a / 2 ^ cfg.ps) := (has_pg x a).2 ⟨ha, ha'⟩
  have I := r.inv hc
  obtain ⟨h1, h2⟩ := ht _ _ (I.cov hc hx hp) a rfl
  refine ⟨h1, ?_, h2⟩
  have := I.page0 hc (o := w) (r := x) hx hp
  rcases Nat.eq_zero_or_pos a with rfl | h0
  · rw [Nat.zero_div] at this; exact absurd rfl this
  · exact h0

theorem ceil_bytes (hcf : Conf env cfg) (n : Nat) : n ≤ bytesToLengthCeil env.cfg n * 2 ^ cfg.ps := by
  rw [← hcf.ps]
  unfold bytesToLengthCeil
  rw [Nat.shiftRight_eq_div_pow]
  have h1 := Nat.div_add_mod n (2 ^ env.cfg.pageShift)
  have h2 := Nat.mod_lt n (Nat.two_pow_pos env.cfg.pageShift)
  rw [Nat.add_mul, Nat.mul_comm (n / _)]
  unfold SizeMap.Cfg.pageSize
  split <;> omega

theorem run_pos (hc : cfg.OK) {h : Heap} (r : Reach cfg h) {w : Owner} {x : Run} (hx : (w, x) ∈ h.led) : 0 < x.n :=
  have I := r.inv hc
  ((PageHeap.runs_disjoint hc.N2 hc.H0 (I.page _)).2.1 x ((I.led _).mem_iff.1 (mem_ofTag.2 ⟨w, hx, rfl⟩))).1

/-- A run that is out: where it begins, and that it is in 48 bits. -/
theorem run_addr (hc : cfg.OK) {h : Heap} (r : Reach cfg h) (ht : ∀ t q, Cov (h.ob t) q → TagOK cfg t q) {w : Owner}
    {x : Run} (hx : (w, x) ∈ h.led) : getMemoryTag (x.p * 2 ^ cfg.ps) = w.tag cfg ∧ 0 < x.p * 2 ^ cfg.ps ∧
      x.p * 2 ^ cfg.ps + x.n * 2 ^ cfg.ps ≤ 2 ^ 48 := by
  have h1 : 0 < x.n * 2 ^ cfg.ps := Nat.mul_pos (run_pos hc r hx) (Nat.two_pow_pos _)
  have h2 : (x.p + x.n) * 2 ^ cfg.ps = x.p * 2 ^ cfg.ps + x.n * 2 ^ cfg.ps := Nat.add_mul _ _ _
  have t1 := run_tag hc r ht hx (a := x.p * 2 ^ cfg.ps) (Nat.le_refl _) (by omega)
  have t2 := run_tag hc r ht hx (a := x.p * 2 ^ cfg.ps + x.n * 2 ^ cfg.ps - 1) (by omega) (by omega)
  exact ⟨t1.1, t1.2.1, by omega⟩

/-- What an entry point does with an answer that is placed. -/
theorem placed_block (hcf : Conf env cfg) (hc : cfg.OK) {h : Heap} (r : Reach cfg h) {p : Pol} {size : Nat} {B : Block} {ans : Ans}
    (hB : Placed env cfg h p size B ans) : B ∈ h.live cfg ∧ ans.mem = byte h.mem ∧
    ∀ (f f' : Frontend.Heap) b cap, fastAlloc env p f size ans = .ok (f', some (b, cap)) →
      f' = { f with mem := ans.mem, live := b :: f.live } ∧ b.addr = B.addr ∧ ∀ a, b.Has env a → a < B.addr + B.size := by
  have I := r.inv hc
  cases hB with
  | cached c o x sb l hcl hu hr ho =>
    obtain ⟨hus, -⟩ := I.user hc hu
    refine ⟨List.mem_append_left _ (List.mem_map.2 ⟨_, hu, rfl⟩), rfl, fun f f' b cap hf => ?_⟩
    have hsz := hcf.size c hus
    unfold fastAlloc at hf
    simp only [hcl, hsz] at hf
    simp only [Except.ok.injEq, Prod.mk.injEq, Option.some.injEq] at hf
    obtain ⟨rfl, rfl, rfl⟩ := hf
    refine ⟨rfl, rfl, fun a ⟨n, hn, _, ha⟩ => ?_⟩
    unfold Frontend.getSize at hn
    rw [if_pos (by have := hcf.zero c hus; show c ≠ 0; omega)] at hn
    simp only at hn
    rw [hsz] at hn; cases hn
    exact ha
  | own c n x l hcl hn hr hrn =>
    refine ⟨List.mem_append_right _ (List.mem_map.2 ⟨_, mem_bigs.2 ⟨_, hr⟩, rfl⟩), rfl, fun f f' b cap hf => ?_⟩
    unfold fastAlloc at hf
    simp only [hcl, hn] at hf
    simp only [Except.ok.injEq, Prod.mk.injEq, Option.some.injEq] at hf
    obtain ⟨rfl, rfl, rfl⟩ := hf
    refine ⟨rfl, rfl, fun a ⟨m, hm, _, ha⟩ => ?_⟩
    have hm' : n = m := by simpa [Frontend.getSize, Frontend.mkSample] using hm
    subst hm'
    refine Nat.lt_of_lt_of_le ha (Nat.add_le_add_left ?_ _)
    show n ≤ x.n * 2 ^ cfg.ps
    rw [hrn]; exact ceil_bytes hcf n
  | pages t x sampled m hcl ht hr hn hal =>
    refine ⟨List.mem_append_right _ (List.mem_map.2 ⟨_, mem_bigs.2 ⟨_, hr⟩, rfl⟩), rfl, fun f f' b cap hf => ?_⟩
    unfold fastAlloc at hf
    simp only [hcl] at hf
    split at hf
    · cases hf
    simp only [Except.ok.injEq, Prod.mk.injEq, Option.some.injEq] at hf
    obtain ⟨rfl, rfl, rfl⟩ := hf
    refine ⟨rfl, rfl, fun a ⟨m, hm, _, ha⟩ => ?_⟩
    refine Nat.lt_of_lt_of_le ha (Nat.add_le_add_left ?_ _)
    have hm' : m = Frontend.inBytes64 env.cfg (max (bytesToLengthCeil env.cfg size) 1) := by
      unfold Frontend.getSize at hm
      simp only [ne_eq, not_true_eq_false, if_false] at hm
      cases sampled <;> simp [Frontend.mkSample] at hm <;> exact hm.symm
    rw [hm']
    show _ ≤ x.n * 2 ^ cfg.ps
    unfold Frontend.inBytes64
    rw [hn, ← hcf.ps, Nat.shiftLeft_eq]
    exact Nat.mod_le _ _

/-- The contract of `Verif/Frontend` for the back end is kept. -/
theorem placed_ok (hcf : Conf env cfg) (hc : cfg.OK) {s : Joint} (r : Reach cfg s.h) (S : Sim env cfg s) {p : Pol} {size : Nat}
    {B : Block} {ans : Ans} (hB : Placed env cfg s.h p size B ans) (hne : ∀ b ∈ s.f.heap.live, s.bk b ≠ B) :
    ans.OK env p s.f.heap size := by
  have I := r.inv hc
  obtain ⟨hBl, hmem, hblk⟩ := placed_block hcf hc r hB
  have hps : env.cfg.pageSize = 2 ^ cfg.ps := by unfold SizeMap.Cfg.pageSize; rw [hcf.ps]
  refine ⟨?_, ?_, fun f' b cap hf b' hb' => ?_, fun b' hb' a ha => ?_⟩
  · intro c bytes hcl hby
    cases hB with
    | cached c' o x sb l hcl' hu hr ho =>
      rw [hcl] at hcl'; cases hcl'
      obtain ⟨hus, -⟩ := I.user hc hu
      rw [hcf.size c hus] at hby; cases hby
      have hn := (I.size c x (Or.inr hr)).2
      have hh := obj_has hc hus hn ho
      have hpos := (hc.geo c hus).1.sizePos
      obtain ⟨t, ht1, ht2⟩ := hcf.tag c hus
      have t1 := run_tag hc r S.tag hr (a := o) hh.1 (by omega)
      have t2 := run_tag hc r S.tag hr (a := o + (cfg.geo c).size - 1) (by omega) (by omega)
      refine ⟨by rw [hps]; exact Nat.dvd_mul_left _ _, ?_, ⟨t, ht1, ?_⟩, t1.2.1, by omega⟩
      · obtain ⟨i, -, rfl⟩ := ho
        refine ⟨i, ?_⟩
        have e1 : (CentralFreeList.spanAt (cfg.geo c) x.p).start = x.p * 2 ^ cfg.ps := by
          unfold CentralFreeList.spanAt Geo.start Geo.pageSize
          show x.p * 2 ^ (cfg.geo c).pageShift = _
          rw [(hc.geo c hus).2]
        rw [e1]; rfl
      · rw [t1.1]; exact ht2
    | own c' n x l hcl' hn hr hrn =>
      rw [hcl] at hcl'; cases hcl'
      rw [hn] at hby; cases hby
      obtain ⟨t1, t2, t3⟩ := run_addr hc r S.tag hr
      have h1 := ceil_bytes hcf bytes
      rw [← hrn] at h1
      exact ⟨by rw [hps]; exact Nat.dvd_mul_left _ _, t1, t2, by omega⟩
    | pages t x sampled m hcl' ht hr hn hal => rw [hcl] at hcl'; cases hcl'
  · intro hcl
    cases hB with
    | cached c' o x sb l hcl' hu hr ho => rw [hcl] at hcl'; cases hcl'
    | own c' n x l hcl' hn hr hrn => rw [hcl] at hcl'; cases hcl'
    | pages t x sampled m hcl' ht hr hn hal =>
      obtain ⟨t1, t2, t3⟩ := run_addr hc r S.tag hr
      rw [hn] at t3
      exact ⟨by rw [hps]; exact Nat.dvd_mul_left _ _, hal, ⟨t, ht, t1⟩, t2, by rw [hps]; exact t3⟩
  · obtain ⟨-, g1, g2⟩ := hblk _ _ _ _ hf
    obtain ⟨w1, w2, w3⟩ := S.within b' hb'
    have hd := live_apart hc r hBl w1 (fun h => hne b' hb' h.symm)
    have p1 := ((live_blocks_disjoint hc r).2 B hBl).1
    have p2 := ((live_blocks_disjoint hc r).2 _ w1).1
    unfold Block.Apart at hd
    refine ⟨by omega, fun a ⟨ha, ha'⟩ => ?_⟩
    have a1 := g2 a ha
    have a2 := w3 a ha'
    obtain ⟨n, -, a3, -⟩ := ha
    obtain ⟨n', -, a4, -⟩ := ha'
    omega
  · rw [hmem]; exact (S.mem b' hb' a ha).symm

/-! ### Every joint history -/

theorem JStep.sim (hcf : Conf env cfg) (hc : cfg.OK) {t : List SizeMap.Info} (he : env.OK t) {R : Pol → Prop} {s s' : Joint} {e : Option Nat}
    (hst : JStep env cfg s e s') (r : Reach cfg s.h) (fr : Frontend.Reach env R s.f) (S : Sim env cfg s) :
    Reach cfg s'.h ∧ Frontend.Reach env R s'.f ∧ Sim env cfg s' := by
  cases hst with
  | back e h' o hp hsys hs hf hw =>
    have r' := r.step e hp hs
    refine ⟨r', fr, ?_, S.ne, ?_, ?_⟩
    · intro b hb
      obtain ⟨w1, w2⟩ := S.within b hb
      refine ⟨?_, w2⟩
      have h1 := (live_exact hc r hp hs).mem_iff.2 (List.mem_append_right _ w1)
      exact (List.mem_append.1 h1).resolve_left (hf b hb)
    · intro b hb a ha
      rw [S.mem b hb a ha]
      obtain ⟨w1, w2, w3⟩ := S.within b hb
      by_cases hwr : ∃ w, e = .write w
      · obtain ⟨w, rfl⟩ := hwr
        cases hs
        exact (hw w rfl b hb a ha).symm
      · have h3 := w3 a ha
        obtain ⟨n, -, h4, -⟩ := ha
        have h5 := live_even hc r w1
        exact (byte_congr (contents_kept hc r hp hs (fun w h => hwr ⟨w, h⟩) w1 (hf b hb) (a := a / 2) ⟨by omega, by omega⟩).1).symm
    · intro t' q hq
      rcases step_obtained hs hq with h1 | ⟨e', who, w, rfl, x, hx, hxq⟩
      · exact S.tag t' q h1
      · exact hsys x hx q hxq
  | alloc p size B ans f' b cap hp hsz hB hne hr =>
    have hok := placed_ok hcf hc r S hB hne
    refine ⟨r, fr.step (.alloc p size ans f' b cap hp hsz hok hr), ?_⟩
    obtain ⟨hBl, hmem, hblk⟩ := placed_block hcf hc r hB
    obtain ⟨rfl, g1, g2⟩ := hblk _ _ _ _ hr
    have hbn : b ∉ s.f.heap.live := fun hb => (hok.fresh _ b cap hr b hb).1 rfl
    refine ⟨?_, ?_, ?_, S.tag⟩
    · intro b' hb'
      show (if b' = b then B else s.bk b') ∈ _ ∧ _ = (if b' = b then B else s.bk b').addr ∧
        ∀ a, _ → a < (if b' = b then B else s.bk b').addr + (if b' = b then B else s.bk b').size
      by_cases hbb : b' = b
      · subst hbb; rw [if_pos rfl]; exact ⟨hBl, g1, g2⟩
      · rw [if_neg hbb]
        exact S.within b' ((List.mem_cons.1 hb').resolve_left hbb)
    · show List.Pairwise _ (b :: s.f.heap.live)
      refine List.pairwise_cons.2 ⟨fun b' hb' => ?_, S.ne.imp_of_mem ?_⟩
      · have : b' ≠ b := fun h => hbn (h ▸ hb')
        show (if b = b then B else _) ≠ (if b' = b then B else _)
        rw [if_pos rfl, if_neg this]
        exact (hne b' hb').symm
      · intro x y hx hy hxy
        have h1 : x ≠ b := fun h => hbn (h ▸ hx)
        have h2 : y ≠ b := fun h => hbn (h ▸ hy)
        show (if x = b then B else _) ≠ (if y = b then B else _)
        rw [if_neg h1, if_neg h2]; exact hxy
    · intro b' hb' a ha
      show ans.mem a = _
      rw [hmem]
  | fail p size f' hp hr =>
    have hok : Ans.OK env p s.f.heap size ⟨.null, .null, byte s.h.mem⟩ := by
      refine ⟨fun _ _ _ _ => trivial, fun _ => trivial, fun f' b cap hf => ?_, fun b' hb' a ha => (S.mem b' hb' a ha).symm⟩
      have hoom : ∀ f0 : Frontend.Heap, (Frontend.handleOom p.oom f0 : Except Frontend.Stop _) ≠ .ok (f', some (b, cap)) := by
        intro f0 h
        unfold Frontend.handleOom at h
        split at h <;> cases h
      exfalso
      unfold fastAlloc at hf
      split at hf
      · cases hf
      · split at hf
        · cases hf
        · exact hoom _ hf
      · split at hf
        · cases hf
        · exact hoom _ hf
    refine ⟨r, fr.step (.allocFail p size _ f' hp hok hr), ?_⟩
    have hl : f'.live = s.f.heap.live ∧ f'.mem = byte s.h.mem := by
      rcases Frontend.fastAlloc_none hr with ⟨-, rfl⟩ | ⟨-, rfl⟩ <;> exact ⟨rfl, rfl⟩
    refine ⟨?_, ?_, ?_, S.tag⟩
    · show ∀ b ∈ f'.live, _; rw [hl.1]; exact S.within
    · show f'.live.Pairwise _; rw [hl.1]; exact S.ne
    · intro b hb a ha; show f'.mem a = _; rw [hl.2]
  | free k b f' d hb hk hr =>
    refine ⟨r, fr.step (.free k b f' d hb hk hr), ?_⟩
    have hl : f' = s.f.heap.remove b := by
      unfold Frontend.free at hr
      split at hr
      · cases hr
      · cases hr; rfl
    subst hl
    exact ⟨fun b' hb' => S.within b' (List.mem_of_mem_erase hb'), S.ne.sublist List.erase_sublist,
      fun b' hb' => S.mem b' (List.mem_of_mem_erase hb'), S.tag⟩
  | freeSized q b f' d hb hk hr =>
    refine ⟨r, fr.step (.freeSized q b f' d hb hk hr), ?_⟩
    have hl : f' = s.f.heap.remove b := by
      unfold Frontend.freeSized at hr
      split at hr
      · cases hr
      · cases hr; rfl
    subst hl
    exact ⟨fun b' hb' => S.within b' (List.mem_of_mem_erase hb'), S.ne.sublist List.erase_sublist,
      fun b' hb' => S.mem b' (List.mem_of_mem_erase hb'), S.tag⟩
  | write b a v hb ha =>
    obtain ⟨w1, w2, w3⟩ := S.within b hb
    have hp : Pre cfg s.h (.write (setByte s.h.mem a v)) := by
      intro x hx
      have hxa : x = a / 2 := by
        apply Classical.byContradiction; intro hn
        exact hx (if_neg hn)
      subst hxa
      have h3 := w3 a ha
      obtain ⟨n, -, h4, -⟩ := ha
      have h5 := live_even hc r w1
      exact ⟨_, w1, by omega, by omega⟩
    refine ⟨r.step _ hp rfl, fr.step (.write b a v hb ha), ?_, S.ne, ?_, S.tag⟩
    · exact S.within
    · intro b' hb' a' ha'
      show (if a' = a then v else s.f.heap.mem a') = byte (setByte s.h.mem a v) a'
      by_cases haa : a' = a
      · subst haa; rw [if_pos rfl, byte_set]
      · rw [if_neg haa, byte_set_ne _ _ haa]; exact S.mem b' hb' a' ha'

/-- **The composed heap keeps the contract.**  In every joint history the lower level is a history of the composed heap and
the upper level one of `Verif/Frontend`: all theorems about histories of the entry points hold, without `Ans.OK` as an assumption. -/
theorem JReach.refines (hcf : Conf env cfg) (hc : cfg.OK) {t : List SizeMap.Info} (he : env.OK t) {R : Pol → Prop} {s : Joint}
    (h : JReach env cfg s) : Reach cfg s.h ∧ Frontend.Reach env R s.f ∧ Sim env cfg s := by
  induction h with
  | init s hf hr h0 =>
    refine ⟨hr, .init s.f hf, ?_, ?_, ?_, ?_⟩
    · rw [hf]; intro b hb; cases hb
    · rw [hf]; exact .nil
    · rw [hf]; intro b hb; cases hb
    · intro t q hq; rw [h0 t] at hq; obtain ⟨_, hm, _⟩ := hq; cases hm
  | step _ hs ih => exact hs.sim hcf hc he ih.1 ih.2.1 ih.2.2

/-- **C01.** Two different blocks that users have begin at different addresses and share no usable byte, after any history of
allocations, frees and writes through the entry points, whatever caches, free lists, page heaps and kernel did meanwhile. -/
theorem user_blocks_disjoint (hcf : Conf env cfg) (hc : cfg.OK) {t : List SizeMap.Info} (he : env.OK t) {s : Joint}
    (h : JReach env cfg s) {b b' : Frontend.Block} (hb : b ∈ s.f.heap.live) (hb' : b' ∈ s.f.heap.live) (hne : b ≠ b') :
    b.addr ≠ b'.addr ∧ ∀ a, ¬ (b.Has env a ∧ b'.Has env a) :=
  Frontend.live_blocks_disjoint he (JReach.refines (R := fun _ => True) hcf hc he h).2.1 hb hb' hne

/-- **C01, C02.** A block has at least the bytes asked for, and all its usable bytes are in one block of the heap. -/
theorem user_block_size (hcf : Conf env cfg) (hc : cfg.OK) {t : List SizeMap.Info} (he : env.OK t) {s : Joint}
    (h : JReach env cfg s) {b : Frontend.Block} (hb : b ∈ s.f.heap.live) :
    ∃ u, Frontend.getSize env b = some u ∧ (s.f.req b).2 ≤ u ∧ ∃ B ∈ s.h.live cfg, B.addr = b.addr ∧ u ≤ B.size := by
  obtain ⟨-, h1, S⟩ := JReach.refines (R := fun _ => True) hcf hc he h
  obtain ⟨u, h2, h3⟩ := Frontend.live_block_size he h1 hb
  obtain ⟨w1, w2, w3⟩ := S.within b hb
  refine ⟨u, h2, h3, _, w1, w2.symm, ?_⟩
  rcases Nat.eq_zero_or_pos u with h0 | h0
  · omega
  · have := w3 (b.addr + u - 1) ⟨u, h2, by omega, by omega⟩
    omega

/-- **C01.** A byte of a block in memory changes only when a user writes to it, as long as the block is not freed. -/
theorem user_bytes_kept (hcf : Conf env cfg) (hc : cfg.OK) {t : List SizeMap.Info} (he : env.OK t) {s s' : Joint}
    (h : JReach env cfg s) {e : Option Nat} (hs : JStep env cfg s e s') {b : Frontend.Block} (hb : b ∈ s.f.heap.live)
    {a : Nat} (ha : b.Has env a) (hw : e ≠ some a) : byte s'.h.mem a = byte s.h.mem a := by
  obtain ⟨r, h1, S⟩ := JReach.refines (R := fun _ => True) hcf hc he h
  have S' := (hs.sim hcf hc he r h1 S).2.2
  cases hs with
  | back e h' o hp hsys hs hf hwr => exact (S'.mem b hb a ha).symm.trans (S.mem b hb a ha)
  | alloc => rfl
  | fail => rfl
  | free => rfl
  | freeSized => rfl
  | write b1 a1 v hb1 ha1 => exact byte_set_ne _ _ fun h => hw (by rw [h])

end Verif.ThreadHeap
