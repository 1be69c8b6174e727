import Verif.Frontend.Props
/-!
Histories of legal calls: the state machine whose steps are the entry points (in any order, from any
thread: each call is one step) and user writes to live blocks.
-/
namespace Verif.Frontend
open Verif.SizeMap
open Verif.MemoryTag

/-- A heap together with, for each block, the request it last served: the policy and size passed by
the user (ghost state: the program knows it, the allocator does not store it). -/
structure GState where
  heap : Heap
  req : Block → Pol × Nat

def setReq (f : Block → Pol × Nat) (b : Block) (v : Pol × Nat) : Block → Pol × Nat :=
  fun b' => if b' = b then v else f b'

def setReqOpt (f : Block → Pol × Nat) (r : Option Block) (v : Pol × Nat) : Block → Pol × Nat :=
  match r with
  | none => f
  | some b => setReq f b v

/-- One legal call, or one user write (`some a`: the byte written).  A user may free a live block
through a matching family, pass to a sized free the size last requested, `realloc` only blocks of the C
family, and write only bytes of live blocks.  `R` restricts which blocks are `realloc`ed (by the policy
of their request). -/
inductive Step (env : Env) (R : Pol → Prop) : GState → Option Nat → GState → Prop
  | alloc {s : GState} (p : Pol) (size : Nat) (ans : Ans) (h' : Heap) (b : Block) (cap : Nat)
      (hp : p.Valid env) (hsz : size < 2 ^ 64) (ha : ans.OK env p s.heap size)
      (hr : fastAlloc env p s.heap size ans = .ok (h', some (b, cap))) :
      Step env R s none ⟨h', setReq s.req b (p, size)⟩
  | allocFail {s : GState} (p : Pol) (size : Nat) (ans : Ans) (h' : Heap)
      (hp : p.Valid env) (ha : ans.OK env p s.heap size)
      (hr : fastAlloc env p s.heap size ans = .ok (h', none)) :
      Step env R s none ⟨h', s.req⟩
  | calloc {s : GState} (numa n m : Nat) (ans : Ans) (h' : Heap) (r : Option Block)
      (hn1 : numa < env.cfg.numaParts) (hn2 : env.activeParts = 1 → numa = 0)
      (ha : ans.OK env (mallocPol env.cfg numa) s.heap (n * m))
      (hr : calloc env numa s.heap n m ans = .ok (h', r)) :
      Step env R s none ⟨h', setReqOpt s.req r (mallocPol env.cfg numa, n * m)⟩
  | realloc {s : GState} (numa : Nat) (b : Block) (size : Nat) (w : Bool) (ans : Ans) (h' : Heap)
      (r : Option Block) (hb : b ∈ s.heap.live)
      (hn1 : numa < env.cfg.numaParts) (hn2 : env.activeParts = 1 → numa = 0)
      (hfam : (s.req b).1.kind.type ≠ .new) (hR : R (s.req b).1) (hsz : size < 2 ^ 64)
      (ha : ans.OK env (reallocPol env numa b) s.heap size)
      (hr : realloc env numa s.heap (some b) size w ans = .ok (h', r)) :
      Step env R s none ⟨h', setReqOpt s.req r (reallocPol env numa b, size)⟩
  | free {s : GState} (k : Kind) (b : Block) (h' : Heap) (d : Dest) (hb : b ∈ s.heap.live)
      (hk : FreeMatches k (s.req b).1.kind) (hr : free env k s.heap b = .ok (h', d)) :
      Step env R s none ⟨h', s.req⟩
  | freeSized {s : GState} (q : Pol) (b : Block) (h' : Heap) (d : Dest) (hb : b ∈ s.heap.live)
      (hk : q.kind = (s.req b).1.kind) (hr : freeSized env q s.heap (s.req b).2 b = .ok (h', d)) :
      Step env R s none ⟨h', s.req⟩
  | write {s : GState} (b : Block) (a : Nat) (v : UInt8) (hb : b ∈ s.heap.live) (ha : b.Has env a) :
      Step env R s (some a)
        ⟨{ s.heap with mem := fun x => if x = a then v else s.heap.mem x }, s.req⟩

/-- States reachable from an empty heap (with arbitrary memory contents). -/
inductive Reach (env : Env) (R : Pol → Prop) : GState → Prop
  | init (s : GState) (h : s.heap.live = []) : Reach env R s
  | step {s s' : GState} {e : Option Nat} (h : Reach env R s) (hs : Step env R s e s') : Reach env R s'

/-- Runs during which block `b` stays live and its byte `a` is not written by the user. -/
inductive Keeps (env : Env) (R : Pol → Prop) (b : Block) (a : Nat) : GState → GState → Prop
  | refl (s : GState) : Keeps env R b a s s
  | step {s s' s'' : GState} {e : Option Nat} (h : Keeps env R b a s s') (hs : Step env R s' e s'')
      (he : e ≠ some a) (hb : b ∈ s'.heap.live) (hb' : b ∈ s''.heap.live) : Keeps env R b a s s''

/-! ### Invariants -/

theorem FreeMatches.trans {a b c : Kind} (h1 : FreeMatches a b) (h2 : FreeMatches b c) :
    FreeMatches a c := by
  rcases h1 with rfl | ⟨h1, h1'⟩
  · exact h2
  · rcases h2 with rfl | ⟨h2, h2'⟩
    · exact Or.inr ⟨h1, h1'⟩
    · exact Or.inr ⟨h1, h2'⟩

/-- A live block and the request recorded for it. -/
def LiveOK (env : Env) (b : Block) (r : Pol × Nat) : Prop :=
  (∃ p size cap, p.Valid env ∧ Origin env p size b cap ∧ getSize env b = some cap ∧
    0 < b.addr ∧ b.addr < 2 ^ 48 ∧ size ≤ cap ∧ r.2 ≤ cap ∧ FreeMatches r.1.kind p.kind) ∧
  (∀ s, b.sample = some s → s.type = r.1.kind.type)

structure UInv (env : Env) (s : GState) : Prop where
  inv : Inv env s.heap
  live : ∀ b ∈ s.heap.live, LiveOK env b (s.req b)

theorem Origin.sampleType {env : Env} {p : Pol} {size cap : Nat} {b : Block}
    (h : Origin env p size b cap) : ∀ s, b.sample = some s → s.type = p.kind.type := by
  intro s hs
  cases h with
  | cached c tg hc hb hs' hsz ht htag h8 hpos => rw [hs] at hs'; cases hs'
  | own hb c hc hsz hs' hst htag => rw [hs] at hs'; simp at hs'; subst hs'; rfl
  | guarded hb c bytes hsz hcap hc hs' htag => rw [hs] at hs'; simp at hs'; subst hs'; rfl
  | pages tg hb hst hc hcap hsb hs' ht htag hpg => rw [hs] at hs'; simp at hs'; subst hs'; rfl

theorem liveOK_fresh {env : Env} {t : List Info} (he : env.OK t) {p : Pol} (hp : p.Valid env) {h : Heap}
    {size : Nat} {ans : Ans} (ha : ans.OK env p h size) {h' : Heap} {b : Block}
    {cap : Nat} (hr : fastAlloc env p h size ans = .ok (h', some (b, cap))) :
    LiveOK env b (p, size) := by
  obtain ⟨h1, h2, h3, h4, h5, h6, h7, h8⟩ := fastAlloc_spec he hp ha hr
  exact ⟨⟨p, size, cap, hp, h7, h1, h4, h6, h2, h2, Or.inl rfl⟩, h7.sampleType⟩

theorem Inv.addrs_ne {env : Env} {h : Heap} (hi : Inv env h) {b b' : Block} (hb : b ∈ h.live)
    (hb' : b' ∈ h.live) (hne : b ≠ b') : Apart env b b' := by
  have hd := hi.disj
  generalize h.live = l at hd hb hb'
  induction hd with
  | nil => cases hb
  | cons hx _ ih =>
    rcases List.mem_cons.1 hb with h1 | h1 <;> rcases List.mem_cons.1 hb' with h2 | h2
    · exact absurd (h1.trans h2.symm) hne
    · rw [h1]; exact hx _ h2
    · rw [h2]; exact (hx _ h1).symm
    · exact ih h1 h2

/-- What `calloc` does, whatever it answers. -/
theorem calloc_cases {env : Env} {numa : Nat} {h : Heap} {n m : Nat} {ans : Ans} {h' : Heap}
    {r : Option Block} (hr : calloc env numa h n m ans = .ok (h', r)) :
    match r with
    | none => h'.live = h.live ∧ (h'.mem = h.mem ∨ h'.mem = ans.mem)
    | some b => n * m < 2 ^ 64 ∧ ∃ h1 cap,
        fastAlloc env (mallocPol env.cfg numa) h (n * m) ans = .ok (h1, some (b, cap)) ∧
        h' = { h1 with mem := memset0 h1.mem b.addr (n * m) } := by
  unfold calloc malloc at hr
  by_cases hov : (mulOverflow n m).1 = true
  · rw [if_pos hov] at hr
    unfold handleOom at hr
    simp at hr
    obtain ⟨rfl, rfl⟩ := hr
    exact ⟨rfl, Or.inl rfl⟩
  · rw [if_neg hov] at hr
    have hlt : n * m < 2 ^ 64 := by simpa [mulOverflow] using hov
    have hv : (mulOverflow n m).2 = n * m := Nat.mod_eq_of_lt hlt
    rw [hv] at hr
    cases hf : fastAlloc env (mallocPol env.cfg numa) h (n * m) ans with
    | error e => rw [hf] at hr; simp at hr
    | ok x =>
      obtain ⟨h1, r1⟩ := x
      rw [hf] at hr
      cases r1 with
      | none =>
        simp at hr
        obtain ⟨rfl, rfl⟩ := hr
        rcases fastAlloc_none hf with ⟨-, e⟩ | ⟨-, e⟩ <;> subst e <;> exact ⟨rfl, Or.inr rfl⟩
      | some bc =>
        obtain ⟨b, cap⟩ := bc
        simp at hr
        obtain ⟨rfl, rfl⟩ := hr
        exact ⟨hlt, h1, cap, rfl, rfl⟩

/-- Where the result of a successful `realloc` comes from: the same, unsampled block, whose usable
size is exactly that of a fresh block; or a fresh block. -/
theorem realloc_cases {env : Env} {numa : Nat} {h : Heap} {b : Block} {n : Nat} {w : Bool} {ans : Ans}
    {h' : Heap} {nb : Block} (hz : n ≠ 0)
    (hr : realloc env numa h (some b) n w ans = .ok (h', some nb)) :
    (nb = b ∧ b.sample = none ∧ h' = h ∧ ∃ u, getSize env b = some u ∧ actualNewSize env b n = some u) ∨
    ∃ h2 c2, fastAlloc env (reallocPol env numa b) h n ans = .ok (h2, some (nb, c2)) := by
  unfold realloc at hr
  simp only [hz, if_false] at hr
  split at hr
  · cases hr
  unfold doRealloc at hr
  split at hr
  · rename_i o a ho ha
    by_cases hmove : (decide (a ≠ o) || b.sample.isSome || (decide (n ≤ env.cfg.maxSize) && w)
      || b.guarded) = true
    · rw [if_pos hmove] at hr
      split at hr
      · cases hr
      · cases hr
      · rename_i h2 nb' c2 hf
        right
        generalize (if o < n then o else n) = x at hr
        simp only at hr
        split at hr
        · cases hr
        · split at hr
          · cases hr
          · simp at hr
            exact ⟨h2, c2, by rw [hf, hr.2]⟩
    · rw [if_neg hmove] at hr
      simp at hr
      simp only [Bool.or_eq_true, decide_eq_true_eq, not_or] at hmove
      obtain ⟨⟨⟨m1, m2⟩, m3⟩, m4⟩ := hmove
      left
      exact ⟨hr.2.symm, by simpa using m2, hr.1.symm, o, ho, by rw [ha]; simpa using m1⟩
  · cases hr

theorem UInv.step {env : Env} {t : List Info} (he : env.OK t) {R : Pol → Prop} {s s' : GState}
    {e : Option Nat} (hi : UInv env s) (hs : Step env R s e s') : UInv env s' := by
  cases hs with
  | alloc p size ans h' b cap hp hsz ha hr =>
    have hinv := hi.inv.cons he hp ha hr
    refine ⟨hinv, ?_⟩
    intro b' hb'
    obtain ⟨-, -, -, -, -, -, -, h8⟩ := fastAlloc_spec he hp ha hr
    simp only [setReqOpt, setReq]
    by_cases hbb : b' = b
    · rw [if_pos hbb, hbb]; exact liveOK_fresh he hp ha hr
    · rw [if_neg hbb]
      subst h8
      simp [hbb] at hb'
      exact hi.live b' hb'
  | allocFail p size ans h' hp ha hr =>
    rcases fastAlloc_none hr with ⟨-, e⟩ | ⟨-, e⟩ <;> subst e <;>
      exact ⟨⟨hi.inv.blocks, hi.inv.disj⟩, hi.live⟩
  | calloc numa n m ans h' r hn1 hn2 ha hr =>
    have hc := calloc_cases hr
    cases r with
    | none =>
      obtain ⟨h1, -⟩ := hc
      refine ⟨⟨?_, ?_⟩, ?_⟩
      · intro b hb; rw [h1] at hb; exact hi.inv.blocks b hb
      · show List.Pairwise _ h'.live
        rw [h1]; exact hi.inv.disj
      · intro b hb
        have hb' : b ∈ s.heap.live := by rw [← h1]; exact hb
        exact hi.live b hb'
    | some b =>
      obtain ⟨hlt, h1, cap, hf, rfl⟩ := hc
      have hpv := mallocPol_valid he hn1 hn2 .malloc ⟨4, rfl⟩
      have hf' : fastAlloc env { mallocPol env.cfg numa with kind := .malloc } s.heap (n * m) ans = _ := hf
      have hinv := hi.inv.cons he hpv ha hf'
      refine ⟨⟨hinv.blocks, hinv.disj⟩, ?_⟩
      intro b' hb'
      obtain ⟨-, -, -, -, -, -, -, h8⟩ := fastAlloc_spec he hpv ha hf'
      simp only [setReqOpt, setReq]
      by_cases hbb : b' = b
      · rw [if_pos hbb, hbb]; exact liveOK_fresh he hpv ha hf'
      · rw [if_neg hbb]
        subst h8
        simp [hbb] at hb'
        exact hi.live b' hb'
  | realloc numa b size w ans h' r hb hn1 hn2 hfam hR hsz ha hr =>
    obtain ⟨⟨p, sz, cap, hp, ho, hg, h0, h48, hle, hrle, hfm⟩, hst⟩ := hi.live b hb
    have hfam' : ∀ s, b.sample = some s → s.type ≠ .new := by
      intro sm hsm; rw [hst sm hsm]; exact hfam
    by_cases hz : size = 0
    · subst hz
      rw [realloc_zero he numa hi.inv hb hfam'] at hr
      simp at hr
      obtain ⟨rfl, rfl⟩ := hr
      exact ⟨hi.inv.erase b _ _, fun b' hb' => hi.live b' (List.mem_of_mem_erase hb')⟩
    · obtain ⟨old, h1, r1, k1, k2, k3⟩ := realloc_correct he hn1 hn2 hi.inv hb hfam' size hz hsz w ans ha
      rw [k2] at hr
      simp at hr
      obtain ⟨rfl, rfl⟩ := hr
      cases r1 with
      | none =>
        obtain ⟨l1, -, -⟩ := k3
        refine ⟨⟨?_, ?_⟩, ?_⟩
        · intro b hb; rw [l1] at hb; exact hi.inv.blocks b hb
        · show List.Pairwise _ h1.live
          rw [l1]; exact hi.inv.disj
        · intro b hb
          have hb' : b ∈ s.heap.live := by rw [← l1]; exact hb
          exact hi.live b hb'
      | some nb =>
        obtain ⟨l1, ⟨u, l2, l2'⟩, l3, l4, -, -⟩ := k3
        refine ⟨l4, ?_⟩
        intro b' hb'
        simp only [setReqOpt, setReq]
        by_cases hbb : b' = nb
        · rw [if_pos hbb, hbb]
          by_cases hin : nb = b
          · -- in place
            subst hin
            rw [hg] at l2; simp at l2; subst l2
            refine ⟨⟨p, sz, cap, hp, ho, hg, h0, h48, hle, l2', ?_⟩, ?_⟩
            · have : FreeMatches .malloc (s.req nb).1.kind := Or.inr ⟨by simp [Kind.type], hfam⟩
              exact this.trans hfm
            · -- a block kept in place is not sampled
              intro sm hsm
              exfalso
              rcases realloc_cases hz k2 with ⟨-, hsn, -⟩ | ⟨h2, c2, hf⟩
              · rw [hsm] at hsn; cases hsn
              · exact (ha.fresh h2 nb c2 hf nb hb).1 rfl
          · -- moved: the block is fresh
            rcases realloc_cases hz k2 with ⟨hin', -⟩ | ⟨h2, c2, hf⟩
            · exact absurd hin' hin
            · exact liveOK_fresh he (reallocPol_valid he hn1 hn2 b) ha hf
        · rw [if_neg hbb]
          rcases (l1 b').1 hb' with h | ⟨h, -⟩
          · exact absurd h hbb
          · exact hi.live b' h
  | free k b h' d hb hk hr =>
    unfold free at hr
    split at hr
    · cases hr
    · simp at hr
      obtain ⟨rfl, -⟩ := hr
      exact ⟨hi.inv.erase b _ _, fun b' hb' => hi.live b' (List.mem_of_mem_erase hb')⟩
  | freeSized q b h' d hb hk hr =>
    unfold freeSized at hr
    split at hr
    · cases hr
    · simp at hr
      obtain ⟨rfl, -⟩ := hr
      exact ⟨hi.inv.erase b _ _, fun b' hb' => hi.live b' (List.mem_of_mem_erase hb')⟩
  | write b a v hb ha => exact ⟨⟨hi.inv.blocks, hi.inv.disj⟩, hi.live⟩

theorem Reach.uinv {env : Env} {t : List Info} (he : env.OK t) {R : Pol → Prop} {s : GState}
    (h : Reach env R s) : UInv env s := by
  induction h with
  | init s h => exact ⟨⟨by rw [h]; simp, by rw [h]; simp⟩, by rw [h]; simp⟩
  | step _ hs ih => exact ih.step he hs

end Verif.Frontend
