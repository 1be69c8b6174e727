import Verif.Frontend.History
/-!
Theorems about every history of legal calls (front-end level of C01; C02, C06, C08, C42).
-/
namespace Verif.Frontend
open Verif.SizeMap
open Verif.MemoryTag

/-- **C01 (front end).**  After any history of legal calls, two different live blocks are at different
addresses and share no usable byte.  (The back end's part is its contract `Ans.OK`.) -/
theorem live_blocks_disjoint {env : Env} {t : List Info} (he : env.OK t) {R : Pol → Prop} {s : GState}
    (h : Reach env R s) {b b' : Block} (hb : b ∈ s.heap.live) (hb' : b' ∈ s.heap.live) (hne : b ≠ b') :
    b.addr ≠ b'.addr ∧ ∀ a, ¬ (b.Has env a ∧ b'.Has env a) :=
  (h.uinv he).inv.addrs_ne hb hb' hne

/-- **C02 (histories).**  After any history of legal calls every live block, including one resized in
place, has at least the number of usable bytes last requested for it. -/
theorem live_block_size {env : Env} {t : List Info} (he : env.OK t) {R : Pol → Prop} {s : GState}
    (h : Reach env R s) {b : Block} (hb : b ∈ s.heap.live) :
    ∃ u, getSize env b = some u ∧ (s.req b).2 ≤ u := by
  obtain ⟨⟨p, sz, cap, hp, ho, hg, h0, h48, hle, hrle, hfm⟩, -⟩ := (h.uinv he).live b hb
  exact ⟨cap, hg, hrle⟩

/-- One step leaves alone every byte of every block that is live before and after it, except the byte
a user write names. -/
theorem step_frame {env : Env} {t : List Info} (he : env.OK t) {R : Pol → Prop} {s s' : GState}
    {e : Option Nat} (hi : UInv env s) (hs : Step env R s e s') {b : Block} (hb : b ∈ s.heap.live)
    (hb' : b ∈ s'.heap.live) {a : Nat} (ha : b.Has env a) (hea : e ≠ some a) :
    s'.heap.mem a = s.heap.mem a := by
  cases hs with
  | alloc p size ans h' b1 cap hp hsz hans hr =>
    exact (allocation_correct he hp hans hr).2.2.2.2.2.2 b hb a ha
  | allocFail p size ans h' hp hans hr => exact (allocation_failure hans hr).2.1 b hb a ha
  | calloc numa n m ans h' r hn1 hn2 hans hr =>
    rcases Nat.lt_or_ge (n * m) (2 ^ 64) with hlt | hge
    · obtain ⟨h1, r1, k1, k2, -⟩ := (calloc_correct he hn1 hn2 s.heap n m ans hans).2 hlt
      rw [k1] at hr; simp at hr
      obtain ⟨rfl, rfl⟩ := hr
      exact k2 b hb a ha
    · rw [(calloc_correct he hn1 hn2 s.heap n m ans hans).1 hge] at hr
      simp at hr
      obtain ⟨rfl, rfl⟩ := hr
      rfl
  | realloc numa b1 size w ans h' r hb1 hn1 hn2 hfam hR hsz hans hr =>
    have hfam' : ∀ s, b1.sample = some s → s.type ≠ .new := by
      intro sm hsm; rw [(hi.live b1 hb1).2 sm hsm]; exact hfam
    by_cases hz : size = 0
    · subst hz
      rw [realloc_zero he numa hi.inv hb1 hfam'] at hr
      simp at hr
      obtain ⟨rfl, rfl⟩ := hr
      rfl
    · obtain ⟨old, h1, r1, k1, k2, k3⟩ := realloc_correct he hn1 hn2 hi.inv hb1 hfam' size hz hsz w ans hans
      rw [k2] at hr
      simp at hr
      obtain ⟨rfl, rfl⟩ := hr
      cases r1 with
      | none => exact k3.2.2 b hb a ha
      | some nb =>
        obtain ⟨l1, -, -, -, l5, l6⟩ := k3
        by_cases hbb : b = b1
        · -- the block was resized in place
          rcases (l1 b).1 hb' with h | ⟨-, h⟩
          · rcases realloc_cases hz k2 with ⟨-, -, e, -⟩ | ⟨h2, c2, hf⟩
            · subst e; rfl
            · exact absurd (by rw [← h, ← hbb]) (hans.fresh h2 nb c2 hf b1 hb1).1
          · exact absurd hbb h
        · exact l6 b hb hbb a ha
  | free k b1 h' d hb1 hk hr =>
    unfold free at hr
    split at hr
    · cases hr
    · simp at hr
      rw [← hr.1]; rfl
  | freeSized q b1 h' d hb1 hk hr =>
    unfold freeSized at hr
    split at hr
    · cases hr
    · simp at hr
      rw [← hr.1]; rfl
  | write b1 a1 v hb1 ha1 =>
    have : a ≠ a1 := fun hc => hea (by rw [hc])
    simp [this]

/-- **C01 (contents).**  As long as a block stays live, every byte of it that the user does not write
keeps its value, whatever other calls are made meanwhile. -/
theorem contents_kept {env : Env} {t : List Info} (he : env.OK t) {R : Pol → Prop} {s s' : GState}
    (h : Reach env R s) {b : Block} {a : Nat} (ha : b.Has env a)
    (hk : Keeps env R b a s s') : s'.heap.mem a = s.heap.mem a := by
  have : Reach env R s' ∧ s'.heap.mem a = s.heap.mem a := by
    induction hk with
    | refl => exact ⟨h, rfl⟩
    | step _ hs hea hb1 hb2 ih =>
      refine ⟨ih.1.step hs, ?_⟩
      rw [step_frame he (ih.1.uinv he) hs hb1 hb2 ha hea]
      exact ih.2
  exact this.2

/-- **C06 (histories).**  In any reachable state the unsized free of a live block through a matching
family succeeds and sends the block where it belongs. -/
theorem legal_free_succeeds {env : Env} {t : List Info} (he : env.OK t) {R : Pol → Prop} {s : GState}
    (h : Reach env R s) {b : Block} (hb : b ∈ s.heap.live) {k : Kind}
    (hk : FreeMatches k (s.req b).1.kind) :
    free env k s.heap b = .ok ({ s.heap with live := s.heap.live.erase b }, b.home) := by
  obtain ⟨⟨p, sz, cap, hp, ho, hg, h0, h48, hle, hrle, hfm⟩, -⟩ := (h.uinv he).live b hb
  unfold free
  rw [doFree_home he hp ho h0 h48 (hk.trans hfm)]
  rfl

/-! ## Sized free after realloc -/

/-- Same group, same block size: same class. -/
theorem class_unique {cfg : Cfg} (hc : cfg.Shipped) {t : List Info} {leftover : Nat} {m : Maps}
    (hm : init cfg t leftover = .ok m) {p q : Policy} (hp : p.Valid cfg) (hq : q.Valid cfg)
    {s1 s2 c1 c2 : Nat} (h1 : getSizeClass cfg m p s1 = some (.small c1))
    (h2 : getSizeClass cfg m q s2 = some (.small c2))
    (hsz : m.classToSize[c1]? = m.classToSize[c2]?) (hg : groupStart cfg p s1 = groupStart cfg q s2) :
    c1 = c2 := by
  have hnl : ∀ (p : Policy) (s c : Nat), p.Valid cfg → getSizeClass cfg m p s = some (.small c) →
      p.align ≤ cfg.pageSize ∧ s ≤ cfg.maxSize := by
    intro p s c hp h
    apply Classical.byContradiction
    intro hn
    rw [(large_iff cfg hc t leftover m hm p hp s).2 (by omega)] at h; simp at h
  have n1 := hnl p s1 c1 hp h1
  have n2 := hnl q s2 c2 hq h2
  obtain ⟨hl, hv, mo⟩ := init_inv hc.ok hm
  have hbig := hc.ok.big
  have g := goodSizes_of_valid (by omega) hl hv
  obtain ⟨b, d, e, a1, a2, a3, a4, a5, a6, a7, a8⟩ := getSizeClass_small hc.ok hl hv mo hp n1.1 n1.2
  obtain ⟨b', d', e', b1, b2, b3, b4, b5, b6, b7, b8⟩ := getSizeClass_small hc.ok hl hv mo hq n2.1 n2.2
  rw [a1] at h1; simp at h1
  rw [b1] at h2; simp at h2
  have hs1 : m.classToSize[b * cfg.numBase + d]? = some e.size := by
    have hcl := (List.getElem?_eq_some_iff.1 a5).1
    rw [mo.sz, setRegister_get _ (by simpa using hl) a3 (by simpa using hcl), List.getElem?_map, a5]
    rfl
  have hs2 : m.classToSize[b' * cfg.numBase + d']? = some e'.size := by
    have hcl := (List.getElem?_eq_some_iff.1 b5).1
    rw [mo.sz, setRegister_get _ (by simpa using hl) b3 (by simpa using hcl), List.getElem?_map, b5]
    rfl
  rw [← h1, ← h2, hs1, hs2] at hsz
  simp at hsz
  have hd : d = d' := by
    apply Classical.byContradiction
    intro hne
    have hts : ∀ (d : Nat) (e : Info), t[d]? = some e → (t.map (·.size))[d]? = some e.size := by
      intro d e he; rw [List.getElem?_map, he]; rfl
    rcases Nat.lt_or_gt_of_ne hne with hlt | hlt
    · have := g.incr d d' _ _ hlt (hts _ _ a5) (hts _ _ b5); omega
    · have := g.incr d' d _ _ hlt (hts _ _ b5) (hts _ _ a5); omega
  subst hd
  omega

/-- A C-family block, not over-aligned, that `realloc` keeps in place looks exactly as if it had been
allocated by `malloc` of the new size. -/
theorem origin_in_place {env : Env} {t : List Info} (he : env.OK t) {p : Pol} (hp : p.Valid env)
    (hfam : p.kind.type ≠ .new) (hal : p.kind.align ≤ env.cfg.pageSize) {size cap : Nat} {b : Block}
    (ho : Origin env p size b cap) (hle : size ≤ cap) (hs : b.sample = none) {n : Nat} (hn : n < 2 ^ 64)
    (ha : actualNewSize env b n = some cap) :
    Origin env { p with kind := .malloc } n b cap ∧ ({ p with kind := .malloc } : Pol).Valid env ∧ n ≤ cap := by
  obtain ⟨leftover, hm⟩ := he.maps
  have hcold : p.cold = false := by
    cases hc : p.cold
    · rfl
    · exact absurd (hp.coldNew hc) hfam
  have hpv : ({ p with kind := .malloc } : Pol).Valid env :=
    ⟨⟨4, rfl⟩, hp.sec, hp.numa, hp.numaActive, by simp [hcold]⟩
  have hqv : ((mallocPol env.cfg 0).inPartition env.cfg (partitionFromPointer env.cfg b.addr)).sm.Valid env.cfg :=
    ⟨⟨4, rfl⟩, (partFromPtr_lt he b.addr).1, (partFromPtr_lt he b.addr).2⟩
  obtain ⟨act, ha', hge, -⟩ := actualNewSize_spec he b hn
  rw [ha] at ha'; simp at ha'; subst ha'
  have hcpos : 0 < cap := by
    cases ho with
    | cached c tg hc hb hs' hsz ht htag h8 hpos =>
      obtain ⟨bytes, hb1, hb2, hb3, hb4⟩ :=
        class_at_least_requested env.cfg he.cfg t leftover env.maps hm p.sm hp.sm size c hc
      rw [hsz] at hb1; simp at hb1; omega
    | own hb c hc hsz hs' hst htag => rw [hs] at hs'; cases hs'
    | guarded hb c bytes hsz hcap hc hs' htag => rw [hs] at hs'; cases hs'
    | pages tg hb hst hc hcap hsb hs ht htag hpg =>
      have : 1 * env.cfg.pageSize ≤ max (bytesToLengthCeil env.cfg size) 1 * env.cfg.pageSize :=
        Nat.mul_le_mul_right _ (Nat.le_max_right _ _)
      have := pageSize_pos env.cfg
      omega
  have hncap := hge hcpos
  refine ⟨?_, hpv, hncap⟩
  have hps16 : 16 ≤ env.cfg.pageSize := Nat.le_of_dvd (pageSize_pos _) (pageSize_dvd16 he.cfg)
  unfold actualNewSize at ha
  cases ho with
  | own hb c hc hsz hs' hst htag => rw [hs] at hs'; cases hs'
  | guarded hb c bytes hsz hcap hc hs' htag => rw [hs] at hs'; cases hs'
  | cached c tg hc hb hs' hsz ht htag h8 hpos =>
    obtain ⟨bytes, hb1, hb2, hb3, hb4⟩ :=
      class_at_least_requested env.cfg he.cfg t leftover env.maps hm p.sm hp.sm size c hc
    rw [hsz] at hb1; simp at hb1; subst hb1
    -- the new size is small too
    have hnl : ¬ (env.cfg.maxSize < n ∨ env.cfg.pageSize < 16) := by omega
    obtain ⟨c', e', k1, -⟩ := class_is_tightest env.cfg he.cfg t leftover env.maps hm _ hqv n
      (by omega) (show 16 ≤ env.cfg.pageSize by omega)
    rw [k1] at ha
    simp only at ha
    obtain ⟨c2, g1, g2⟩ := class_size_eq he.cfg hm hqv hpv.sm rfl k1
    have hcc : c = c2 := by
      refine class_unique he.cfg hm hp.sm hpv.sm hc g1 (by rw [hsz, g2, ha]) ?_
      unfold groupStart Pol.sm
      simp only [hcold, Bool.and_false, Bool.false_eq_true, if_false]
      have : decide (p.kind.type = .new) = decide (Kind.malloc.type = .new) := by
        rw [decide_eq_false hfam]; rfl
      rw [this]
    subst hcc
    exact .cached c tg g1 hb hs' hsz ht htag h8 hpos
  | pages tg hb hst hc hcap hsb hs' ht htag hpg =>
    have hl := (large_iff env.cfg he.cfg t leftover env.maps hm p.sm hp.sm size).1 hc
    have hbig : env.cfg.maxSize < size := by
      rcases hl with h | h
      · exact h
      · have : p.sm.align = p.kind.align := rfl
        omega
    have hnl : env.cfg.maxSize < n := by
      apply Classical.byContradiction
      intro hc
      obtain ⟨c', e', k1, -⟩ := class_is_tightest env.cfg he.cfg t leftover env.maps hm _ hqv n
        (by omega) (show 16 ≤ env.cfg.pageSize by omega)
      rw [k1] at ha
      simp only at ha
      obtain ⟨bytes, hb1, -, hb3, -⟩ :=
        class_at_least_requested env.cfg he.cfg t leftover env.maps hm _ hqv n c' k1
      rw [ha] at hb1; simp at hb1; omega
    rw [(large_iff env.cfg he.cfg t leftover env.maps hm _ hqv n).2 (Or.inl hnl)] at ha
    simp only [Option.some.injEq] at ha
    have hc1 : 1 ≤ bytesToLengthCeil env.cfg n := by
      have := ceil_ge env.cfg n
      apply Classical.byContradiction
      intro hc0
      rw [show bytesToLengthCeil env.cfg n = 0 by omega] at this
      omega
    have hcap' : cap = bytesToLengthCeil env.cfg n * env.cfg.pageSize := by
      have h1 := ceil_ge env.cfg n
      have h2 := ceil_lt env.cfg n
      unfold inBytes64 at ha
      rw [Nat.shiftLeft_eq] at ha
      change bytesToLengthCeil env.cfg n * env.cfg.pageSize % 2 ^ 64 = cap at ha
      by_cases hw : bytesToLengthCeil env.cfg n * env.cfg.pageSize < 2 ^ 64
      · rw [Nat.mod_eq_of_lt hw] at ha; exact ha.symm
      · exfalso
        have := Nat.mod_eq_sub_mod (Nat.le_of_not_lt hw)
        have hps : env.cfg.pageSize ≤ 2 ^ 18 := by
          have := he.cfg.base
          simp only [baseConfigs, List.mem_cons, Prod.mk.injEq, List.not_mem_nil, or_false] at this
          unfold Cfg.pageSize
          exact Nat.pow_le_pow_right (by omega) (by omega)
        rw [this, Nat.mod_eq_of_lt (by omega)] at ha
        omega
    refine .pages tg hb hst ?_ ?_ hsb (Or.inl hs) ht htag hpg
    · exact (large_iff env.cfg he.cfg t leftover env.maps hm _ hpv.sm n).2 (Or.inl hnl)
    · rw [show max (bytesToLengthCeil env.cfg n) 1 = bytesToLengthCeil env.cfg n by omega]
      exact hcap'

/-- Requests that are not aligned beyond a page. -/
def PageAligned (env : Env) (p : Pol) : Prop := p.kind.align ≤ env.cfg.pageSize

def ROK (env : Env) (b : Block) (r : Pol × Nat) : Prop :=
  ∃ p cap, p.Valid env ∧ p.kind = r.1.kind ∧ Origin env p r.2 b cap ∧ getSize env b = some cap ∧
    0 < b.addr ∧ b.addr < 2 ^ 48 ∧ r.2 ≤ cap

theorem rok_fresh {env : Env} {t : List Info} (he : env.OK t) {p : Pol} (hp : p.Valid env) {h : Heap}
    {size : Nat} {ans : Ans} (ha : ans.OK env p h size) {h' : Heap} {b : Block}
    {cap : Nat} (hr : fastAlloc env p h size ans = .ok (h', some (b, cap))) :
    ROK env b (p, size) := by
  obtain ⟨h1, h2, h3, h4, h5, h6, h7, h8⟩ := fastAlloc_spec he hp ha hr
  exact ⟨p, cap, hp, rfl, h7, h1, h4, h6, h2⟩

theorem rok_reach {env : Env} {t : List Info} (he : env.OK t) {s : GState}
    (h : Reach env (PageAligned env) s) : ∀ b ∈ s.heap.live, ROK env b (s.req b) := by
  induction h with
  | init s h => rw [h]; simp
  | @step s s' e hreach hs ih =>
    have hi := hreach.uinv he
    cases hs with
    | alloc p size ans h' b cap hp hsz ha hr =>
      intro b' hb'
      obtain ⟨-, -, -, -, -, -, -, h8⟩ := fastAlloc_spec he hp ha hr
      simp only [setReqOpt, setReq]
      by_cases hbb : b' = b
      · rw [if_pos hbb, hbb]; exact rok_fresh he hp ha hr
      · rw [if_neg hbb]
        subst h8
        simp [hbb] at hb'
        exact ih b' hb'
    | allocFail p size ans h' hp ha hr =>
      rcases fastAlloc_none hr with ⟨-, e⟩ | ⟨-, e⟩ <;> subst e <;> exact ih
    | calloc numa n m ans h' r hn1 hn2 ha hr =>
      have hc := calloc_cases hr
      cases r with
      | none => intro b hb; exact ih b (by rw [← hc.1]; exact hb)
      | some b =>
        obtain ⟨hlt, h1, cap, hf, rfl⟩ := hc
        have hpv := mallocPol_valid he hn1 hn2 .malloc ⟨4, rfl⟩
        have hf' : fastAlloc env { mallocPol env.cfg numa with kind := .malloc } s.heap (n * m) ans = _ := hf
        intro b' hb'
        obtain ⟨-, -, -, -, -, -, -, h8⟩ := fastAlloc_spec he hpv ha hf'
        simp only [setReqOpt, setReq]
        by_cases hbb : b' = b
        · rw [if_pos hbb, hbb]; exact rok_fresh he hpv ha hf'
        · rw [if_neg hbb]
          subst h8
          simp [hbb] at hb'
          exact ih b' hb'
    | realloc numa b size w ans h' r hb hn1 hn2 hfam hR hsz ha hr =>
      have hfam' : ∀ s, b.sample = some s → s.type ≠ .new := by
        intro sm hsm; rw [(hi.live b hb).2 sm hsm]; exact hfam
      by_cases hz : size = 0
      · subst hz
        rw [realloc_zero he numa hi.inv hb hfam'] at hr
        simp at hr
        obtain ⟨rfl, rfl⟩ := hr
        exact fun b' hb' => ih b' (List.mem_of_mem_erase hb')
      · obtain ⟨old, h1, r1, k1, k2, k3⟩ := realloc_correct he hn1 hn2 hi.inv hb hfam' size hz hsz w ans ha
        rw [k2] at hr
        simp at hr
        obtain ⟨rfl, rfl⟩ := hr
        cases r1 with
        | none => intro b hb; exact ih b (by rw [← k3.1]; exact hb)
        | some nb =>
          obtain ⟨l1, -⟩ := k3
          intro b' hb'
          simp only [setReqOpt, setReq]
          by_cases hbb : b' = nb
          · rw [if_pos hbb, hbb]
            rcases realloc_cases hz k2 with ⟨rfl, hsn, -, u, hu1, hu2⟩ | ⟨h2, c2, hf⟩
            · obtain ⟨p, cap, hp, hk, ho, hg, h0, h48, hle⟩ := ih nb hb
              rw [hg] at hu1; simp at hu1; subst hu1
              have hfam2 : p.kind.type ≠ .new := by rw [hk]; exact hfam
              have hal2 : p.kind.align ≤ env.cfg.pageSize := by rw [hk]; exact hR
              obtain ⟨o1, o2, o3⟩ := origin_in_place he hp hfam2 hal2 ho hle hsn hsz hu2
              exact ⟨_, cap, o2, rfl, o1, hg, h0, h48, o3⟩
            · exact rok_fresh he (reallocPol_valid he hn1 hn2 b) ha hf
          · rw [if_neg hbb]
            rcases (l1 b').1 hb' with h | ⟨h, -⟩
            · exact absurd h hbb
            · exact ih b' h
    | free k b h' d hb hk hr =>
      unfold free at hr
      split at hr
      · cases hr
      · simp at hr
        obtain ⟨rfl, -⟩ := hr
        exact fun b' hb' => ih b' (List.mem_of_mem_erase hb')
    | freeSized q b h' d hb hk hr =>
      unfold freeSized at hr
      split at hr
      · cases hr
      · simp at hr
        obtain ⟨rfl, -⟩ := hr
        exact fun b' hb' => ih b' (List.mem_of_mem_erase hb')
    | write b a v hb ha => exact ih

/-- **C42 (partial).**  After any history in which no block aligned beyond a page was `realloc`ed: the
sized free of a live block, with the size last requested for it (by the allocation or by `realloc`) and
through its family, succeeds and sends the block where it belongs.  Missing: histories that `realloc`
blocks aligned beyond a page, for which it is false (`realloc_then_sized_free_misroutes`). -/
theorem sized_free_after_realloc_partial {env : Env} {t : List Info} (he : env.OK t) {s : GState}
    (h : Reach env (PageAligned env) s) {b : Block} (hb : b ∈ s.heap.live) {q : Pol}
    (hq : q.kind = (s.req b).1.kind) :
    freeSized env q s.heap (s.req b).2 b =
      .ok ({ s.heap with live := s.heap.live.erase b }, b.home) := by
  obtain ⟨p, cap, hp, hk, ho, hg, h0, h48, hle⟩ := rok_reach he h b hb
  unfold freeSized
  rw [doFreeWithSize_home he hp ho h0 h48 (by rw [hq, hk]) (Nat.le_refl _) hle (Or.inr (Or.inr rfl))]
  rfl

/-! ## A concrete environment and history -/

/-- The default build: 8 KiB pages, heap partitioning compiled in but off. -/
def hCfg : Cfg := ⟨13, 86, true, 262144, 1, 2, 192, false, false⟩
theorem hCfg_shipped : hCfg.Shipped := ⟨by decide, by decide, by decide⟩

theorem hInit : ∃ m, init hCfg reuse_a16_p13 0 = .ok m := by
  have h := shipped_tables_valid hCfg hCfg_shipped reuse_a16_p13 (by decide +kernel)
  exact (init_succeeds_iff hCfg hCfg_shipped _ h.2 0).2 h.1

theorem hEnv : ∃ env : Env, env.OK reuse_a16_p13 ∧ env.cfg = hCfg ∧ env.activeParts = 1 := by
  obtain ⟨m, hm⟩ := hInit
  exact ⟨⟨hCfg, m, 1, 4096⟩, ⟨hCfg_shipped, ⟨0, hm⟩, fun _ => rfl, (fun h => by cases h),
    (fun h => by cases h), ⟨12, by omega, by omega, rfl⟩⟩, rfl, rfl⟩

/-- A block of page-heap memory in normal partition 0, at 32 KiB-aligned address. -/
def hAddr : Nat := (Tag.normalP0.val <<< 42) + 32768

def hAns : Ans := ⟨.null, .pages hAddr false, fun _ => 0⟩

/-- **C42, false of the code.**  `memalign(16384, 8192)` is served by the page heap (one 8 KiB page).
`realloc` to 8000 bytes keeps it in place, because a malloc of 8000 bytes would also get 8 KiB.  The
sized free with the size last requested, 8000, then sends the page to a small-object free list, although
the block belongs to the page heap. -/
theorem realloc_then_sized_free_misroutes :
    ∃ (env : Env) (t : List Info) (_ : env.OK t) (s1 s2 : GState) (b : Block) (c : Nat),
      Reach env (fun _ => True) s1 ∧
      s1.req b = ({ mallocPol env.cfg 0 with kind := .memalign 16384 }, 8192) ∧
      b ∈ s1.heap.live ∧
      Step env (fun _ => True) s1 none s2 ∧ b ∈ s2.heap.live ∧ s2.req b = (reallocPol env 0 b, 8000) ∧
      freeSized env (mallocPol env.cfg 0) s2.heap 8000 b =
        .ok ({ s2.heap with live := s2.heap.live.erase b }, .small c) ∧
      b.home = .pages := by
  obtain ⟨env, he, hcfg, hact⟩ := hEnv
  obtain ⟨leftover, hm⟩ := he.maps
  have hb8192 : ∀ e, BestClass reuse_a16_p13 8000 16 e → e.size = 8192 := by
    intro e hbest
    have h1 := hbest.2.2.2 ⟨8192, 8192, 8⟩ (by decide +kernel) (by decide) (by decide)
    have h2 : ∀ e ∈ reuse_a16_p13.tail, 8000 ≤ e.size → 16 ∣ e.size → 8192 ≤ e.size := by decide +kernel
    have := h2 e hbest.1 hbest.2.1 hbest.2.2.1
    simp only at h1
    omega
  have hps : env.cfg.pageSize = 8192 := by rw [hcfg]; rfl
  have hmax : env.cfg.maxSize = 262144 := by rw [hcfg]; rfl
  have hnp : env.cfg.numaParts = 1 := by rw [hcfg]; rfl
  have hsp : env.cfg.secParts = 2 := by rw [hcfg]; rfl
  let p : Pol := { mallocPol env.cfg 0 with kind := .memalign 16384 }
  have hpv : p.Valid env := mallocPol_valid he (by rw [hnp]; decide) (fun _ => rfl) (.memalign 16384) ⟨14, rfl⟩
  have hlarge : getSizeClass env.cfg env.maps p.sm 8192 = some .large :=
    (large_iff env.cfg he.cfg _ leftover env.maps hm p.sm hpv.sm 8192).2
      (Or.inr (by show env.cfg.pageSize < 16384; omega))
  have hceil : bytesToLengthCeil env.cfg 8192 = 1 := by rw [hcfg]; decide
  have hbytes : inBytes64 env.cfg (max (bytesToLengthCeil env.cfg 8192) 1) = 8192 := by
    rw [hceil, hcfg]; decide
  let b : Block := ⟨hAddr, 0, hAddr, 8192, none⟩
  have hgsz : getSize env b = some 8192 := rfl
  let s0 : GState := ⟨⟨fun _ => 0, [], 0⟩, fun _ => (mallocPol env.cfg 0, 0)⟩
  have hal1 : fastAlloc env p s0.heap 8192 hAns = .ok (⟨fun _ => 0, [b], 0⟩, some (b, 8192)) := by
    unfold fastAlloc
    rw [hlarge]
    have e : ¬ (bytesToLengthCeil env.cfg p.kind.align > pagesPerHuge env.cfg) := by
      show ¬ (bytesToLengthCeil env.cfg 16384 > pagesPerHuge env.cfg)
      rw [hcfg]; decide
    simp only
    rw [if_neg e]
    simp only [hAns]
    rw [hbytes]
    rfl
  have htag : largeTag env p = some .normalP0 := by
    unfold largeTag
    have : (p.cold && (!env.cfg.modeFull || decide (p.secPart = 0))) = false := rfl
    rw [this, hact]
    rfl
  have hans : hAns.OK env p s0.heap 8192 := by
    refine ⟨?_, ?_, ?_, ?_⟩
    · intro c bytes hc; rw [hlarge] at hc; cases hc
    · intro _
      refine ⟨?_, ?_, ⟨.normalP0, htag, by decide⟩, by decide, ?_⟩
      · rw [hps]; decide
      · show 16384 ∣ hAddr; decide
      · rw [hceil, hps]; decide
    · intro h' b' cap _ b'' hb''; cases hb''
    · intro b' hb'; cases hb'
  have hreach : Reach env (fun _ => True) ⟨⟨fun _ => 0, [b], 0⟩, setReq s0.req b (p, 8192)⟩ :=
    (Reach.init s0 rfl).step (.alloc p 8192 hAns _ b 8192 hpv (by decide) hans hal1)
  -- the class malloc(8000) gets
  have hqv : ((mallocPol env.cfg 0).inPartition env.cfg (partitionFromPointer env.cfg b.addr)).sm.Valid env.cfg :=
    ⟨⟨4, rfl⟩, (partFromPtr_lt he b.addr).1, (partFromPtr_lt he b.addr).2⟩
  obtain ⟨c, e, k1, k2, k3, -⟩ := class_is_tightest env.cfg he.cfg _ leftover env.maps hm _ hqv 8000
    (by omega) (show 16 ≤ env.cfg.pageSize by omega)
  have hsz := hb8192 e k2
  have hactual : actualNewSize env b 8000 = some 8192 := by
    unfold actualNewSize
    rw [k1]
    simp only
    rw [k3, hsz]
  have hrealloc : realloc env 0 ⟨fun _ => 0, [b], 0⟩ (some b) 8000 false hAns =
      .ok (⟨fun _ => 0, [b], 0⟩, some b) := by
    unfold realloc
    simp only [show b.addr &&& kBadHighMask = 0 by decide, ne_eq, not_true_eq_false, if_false,
      show ¬ ((8000 : Nat) = 0) by decide]
    unfold doRealloc
    rw [hgsz, hactual]
    simp [b, Block.guarded]
  have hrv := reallocPol_valid he (numa := 0) (by omega) (fun _ => rfl) b
  obtain ⟨c', e', k1', k2', k3', -⟩ := class_is_tightest env.cfg he.cfg _ leftover env.maps hm _ hrv.sm 8000
    (by omega) (show 16 ≤ env.cfg.pageSize by omega)
  have hans2 : (⟨.null, .null, fun _ => 0⟩ : Ans).OK env (reallocPol env 0 b) ⟨fun _ => 0, [b], 0⟩ 8000 := by
    refine ⟨fun _ _ _ _ => trivial, fun _ => trivial, ?_, fun _ _ _ _ => rfl⟩
    intro h' b' cap hf
    exfalso
    unfold fastAlloc at hf
    rw [k1'] at hf
    simp only [k3'] at hf
    unfold handleOom at hf
    simp [reallocPol, mallocPol, Pol.inPartition] at hf
  have hrealloc2 : realloc env 0 ⟨fun _ => 0, [b], 0⟩ (some b) 8000 false ⟨.null, .null, fun _ => 0⟩ =
      .ok (⟨fun _ => 0, [b], 0⟩, some b) := by
    unfold realloc
    simp only [show b.addr &&& kBadHighMask = 0 by decide, ne_eq, not_true_eq_false, if_false,
      show ¬ ((8000 : Nat) = 0) by decide]
    unfold doRealloc
    rw [hgsz, hactual]
    simp [b, Block.guarded]
  have hstep := Step.realloc (R := fun _ => True)
    (s := ⟨⟨fun _ => 0, [b], 0⟩, setReq s0.req b (p, 8192)⟩) 0 b 8000 false ⟨.null, .null, fun _ => 0⟩ _ _
    (by simp) (by omega) (fun _ => rfl) (by simp [setReq, p, Kind.type]) trivial (by decide) hans2 hrealloc2
  have hfv : (({ mallocPol env.cfg 0 with cold := false } : Pol).inPartition env.cfg 0).sm.Valid env.cfg := by
    refine ⟨⟨4, rfl⟩, ?_, ?_⟩
    · show (0 - 0 % env.cfg.numaParts) / env.cfg.numaParts < env.cfg.secParts
      rw [hnp, hsp]; decide
    · show 0 % env.cfg.numaParts < env.cfg.numaParts
      rw [hnp]; decide
  obtain ⟨c3, e3, f1, -⟩ := class_is_tightest env.cfg he.cfg _ leftover env.maps hm _ hfv 8000
    (by omega) (show 16 ≤ env.cfg.pageSize by omega)
  have hfree : doFreeWithSize env (mallocPol env.cfg 0) 8000 b = .ok (.small c3) := by
    have hk : ptrKind b.addr = .fastNormal := by decide
    have hpf : partitionFromPointerFast env.cfg b.addr = 0 := by rw [hcfg]; decide
    unfold doFreeWithSize
    rw [hk]
    unfold fastFreeWithSize
    simp only [hpf]
    simp only [Bool.false_or, decide_true, if_true]
    rw [f1]
  refine ⟨env, _, he, _, _, b, c3, hreach, by simp [setReq, p], by simp, hstep, by simp,
    by simp [setReqOpt, setReq], ?_, rfl⟩
  unfold freeSized
  rw [hfree]
  rfl

/-- The hypotheses of the history theorems are met by a state with a live small block: a 100-byte
`malloc` answered by a cache. -/
theorem small_block_reachable : ∃ (env : Env) (_ : env.OK reuse_a16_p13) (s : GState) (b : Block),
    Reach env (PageAligned env) s ∧ b ∈ s.heap.live ∧ b.cls ≠ 0 ∧ (s.req b).2 = 100 ∧
    PageAligned env (s.req b).1 := by
  obtain ⟨env, he, hcfg, hact⟩ := hEnv
  obtain ⟨leftover, hm⟩ := he.maps
  have hps : env.cfg.pageSize = 8192 := by rw [hcfg]; rfl
  have hmax : env.cfg.maxSize = 262144 := by rw [hcfg]; rfl
  have hnp : env.cfg.numaParts = 1 := by rw [hcfg]; rfl
  have hpv : (mallocPol env.cfg 0).Valid env :=
    mallocPol_valid he (by rw [hnp]; decide) (fun _ => rfl) .malloc ⟨4, rfl⟩
  obtain ⟨c, e, k1, k2, k3, -, -, k4, k5, -⟩ := class_is_tightest env.cfg he.cfg _ leftover env.maps hm _
    hpv.sm 100 (by omega) (show 16 ≤ env.cfg.pageSize by omega)
  obtain ⟨bytes, hb1, hb2, hb3, hb4⟩ :=
    class_at_least_requested env.cfg he.cfg _ leftover env.maps hm _ hpv.sm 100 c k1
  have hg : groupStart env.cfg (mallocPol env.cfg 0).sm 100 = 0 := by rw [hcfg]; decide
  have hnb : env.cfg.numBase = 86 := by rw [hcfg]; rfl
  have hes : env.cfg.expandedStart = 172 := by rw [hcfg]; decide
  rw [hg] at k4 k5
  have htag : tagFromSizeClass env.cfg env.activeParts c = some .normalP0 := by
    unfold tagFromSizeClass
    rw [if_neg (by simp; intro _; omega), hact]
    rfl
  let ans : Ans := ⟨.cached hAddr hAddr 8192, .null, fun _ => 0⟩
  let b : Block := ⟨hAddr, c, hAddr, 8192, none⟩
  let s0 : GState := ⟨⟨fun _ => 0, [], 0⟩, fun _ => (mallocPol env.cfg 0, 0)⟩
  have hal : fastAlloc env (mallocPol env.cfg 0) s0.heap 100 ans = .ok (⟨fun _ => 0, [b], 0⟩, some (b, bytes)) := by
    unfold fastAlloc
    rw [k1]
    simp only [hb1]
    rfl
  have hA : hAddr < 2 ^ 47 := by decide
  have hans : ans.OK env (mallocPol env.cfg 0) s0.heap 100 := by
    refine ⟨?_, ?_, ?_, ?_⟩
    · intro c' bytes' hc' hb'
      rw [k1] at hc'; simp at hc'; subst hc'
      rw [hb1] at hb'; simp at hb'; subst hb'
      refine ⟨by rw [hps]; decide, ⟨0, by simp⟩, ⟨.normalP0, htag, by decide⟩, by decide, ?_⟩
      omega
    · intro h; rw [k1] at h; cases h
    · intro h' b' cap _ b'' hb''; cases hb''
    · intro b' hb'; cases hb'
  refine ⟨env, he, _, b, (Reach.init s0 rfl).step (.alloc _ 100 ans _ b bytes hpv (by decide) hans hal),
    by simp, ?_, by simp [setReq], ?_⟩
  · show c ≠ 0; omega
  · simp only [setReq, if_true]
    show 16 ≤ env.cfg.pageSize; omega

end Verif.Frontend
