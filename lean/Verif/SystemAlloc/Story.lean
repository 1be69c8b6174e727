import Verif.SystemAlloc.Props
/-! Concrete histories for the theorems of Props.lean. -/
namespace Verif.SystemAlloc
open Verif.MemoryTag

/-- An environment: pseudo-random numbers (the last one for ever), and answers of `mmap` (then failures). -/
structure Env where
  rnds : List Nat := []
  rlast : Nat := 0
  kerns : List (Option Nat) := []
  create : Bool := true
  prot1 : Bool := true
  prot2 : Bool := true
  cust1 : Option (Nat × Nat) := none
  cust2 : Option (Nat × Nat) := none

def Env.o (e : Env) : Oracle :=
  ⟨fun i => e.rnds.getD i e.rlast, fun i => e.kerns.getD i none, e.create, e.prot1, e.prot2, e.cust1, e.cust2⟩

inductive SEv where
  | allocate (bytes alignment : Nat) (tag : Tag) (e : Env)
  | mmapAligned (size alignment : Nat) (tag : Tag) (e : Env)
  | setFactory (custom : Bool)

def SEv.ev : SEv → Ev
  | .allocate b a t e => .allocate b a t e.o
  | .mmapAligned s a t e => .mmapAligned s a t e.o
  | .setFactory b => .setFactory b

def disjB (p q : Nat × Nat) : Bool := decide (p.1 + p.2 ≤ q.1) || decide (q.1 + q.2 ≤ p.1)

theorem disjB_ok {p q : Nat × Nat} (h : disjB p q = true) : Disj p q := by
  simp only [disjB, Bool.or_eq_true, decide_eq_true_eq] at h
  intro x hx
  omega

def envB (c : Cfg) (w : W) (size alignment : Nat) (tag : Tag) (e : Env) : Bool :=
  (List.range e.kerns.length).all (fun i => match e.kerns.getD i none with
    | none => true
    | some r => w.mapped.all (fun m => disjB (r, size) m) && (!c.noreplace || decide (r = attempt w size alignment tag e.o i))) &&
  e.rnds.all (fun r => decide (hintAddr size alignment tag r ≠ 0)) && decide (hintAddr size alignment tag e.rlast ≠ 0)

theorem getD_some {l : List (Option Nat)} {i r : Nat} (h : l.getD i none = some r) : i < l.length := by
  rcases Nat.lt_or_ge i l.length with h1 | h1
  · exact h1
  · rw [List.getD_eq_getElem?_getD, List.getElem?_eq_none h1] at h
    cases h

theorem envB_ok {c : Cfg} {w : W} {size al : Nat} {t : Tag} {e : Env} (h : envB c w size al t e = true) :
    EnvOK c w size al t e.o := by
  simp only [envB, Bool.and_eq_true, List.all_eq_true, List.mem_range, decide_eq_true_eq] at h
  obtain ⟨⟨h1, h2⟩, h3⟩ := h
  have key : ∀ i r, e.kerns.getD i none = some r → (∀ m ∈ w.mapped, disjB (r, size) m = true) ∧
      (c.noreplace = true → r = attempt w size al t e.o i) := by
    intro i r hi
    have := h1 i (getD_some hi)
    rw [hi] at this
    simp only [Bool.and_eq_true, List.all_eq_true, Bool.or_eq_true, Bool.not_eq_true', decide_eq_true_eq] at this
    refine ⟨this.1, fun hn => ?_⟩
    rcases this.2 with h | h
    · rw [hn] at h; cases h
    · exact h
  refine ⟨fun i r hi m hm => disjB_ok ((key i r hi).1 m hm), fun hn i r hi => (key i r hi).2 hn, fun i => ?_⟩
  show hintAddr size al t (e.rnds.getD i e.rlast) ≠ 0
  rcases Nat.lt_or_ge i e.rnds.length with hi | hi
  · rw [List.getD_eq_getElem?_getD, List.getElem?_eq_getElem hi]
    exact h2 _ (List.getElem_mem hi)
  · rw [List.getD_eq_getElem?_getD, List.getElem?_eq_none hi]
    exact h3

def custB (given : List (Nat × Nat)) (start size request alignment : Nat) : Option (Nat × Nat) → Bool
  | none => true
  | some (p, n) => decide (request ≤ n) && decide (p % alignment = 0) && decide (start ≤ p) && decide (p + n ≤ start + size) &&
      given.all (disjB (p, n))

theorem custB_ok {given start size request alignment ans} (h : custB given start size request alignment ans = true) :
    CustOK given start size request alignment ans := by
  rintro p n rfl
  simp only [custB, Bool.and_eq_true, decide_eq_true_eq, List.all_eq_true] at h
  exact ⟨h.1.1.1.1, h.1.1.1.2, h.1.1.2, h.1.2, fun g hg => disjB_ok (h.2 g hg)⟩

def preB (c : Cfg) (w : W) : SEv → Bool
  | .allocate b a t e =>
    decide (0 < b) && decide (b < 2 ^ 64) && (decide (a = 0) || (List.range 64).any (fun i => decide (a = 2 ^ i))) &&
    c.supports t && envB c w (c.askSize b a) (c.askAlign b a) t e &&
    (match w.region t with
      | none => true
      | some r => decide (c.large b a) || !r.custom || custB w.given r.start r.size b (max a c.page) e.cust1) &&
    (!w.custom || match mmapLocked c w (c.askSize b a) (c.askAlign b a) t e.o with
      | some (_, some ptr) =>
        if c.large b a then custB w.given ptr (c.askSize b a) (roundUp b c.huge) (c.askAlign b a) e.cust1
        else custB w.given ptr c.minMmap b (max a c.page) e.cust2
      | _ => true)
  | .mmapAligned s a t e =>
    decide (0 < s) && decide (s ≤ kTagFree) && (List.range 43).any (fun i => decide (a = 2 ^ i)) &&
    c.supports t && envB c w s a t e
  | .setFactory _ => true

theorem preB_ok {c : Cfg} {w : W} {x : SEv} (h : preB c w x = true) : Pre c w x.ev := by
  cases x with
  | allocate b a t e =>
    simp only [preB, Bool.and_eq_true, Bool.or_eq_true, decide_eq_true_eq, List.any_eq_true, List.mem_range] at h
    obtain ⟨⟨⟨⟨⟨⟨h1, h2⟩, h3⟩, h4⟩, h5⟩, h6⟩, h7⟩ := h
    refine ⟨h1, h2, ?_, h4, envB_ok h5, ?_, ?_⟩
    · rcases h3 with h3 | ⟨i, hi, hh⟩
      · exact .inl h3
      · exact .inr ⟨i, hh, hi⟩
    · intro hl r hr hcu
      rw [hr] at h6
      simp only [Bool.or_eq_true, Bool.not_eq_true', decide_eq_true_eq] at h6
      rcases h6 with (h6 | h6) | h6
      · exact absurd h6 hl
      · rw [hcu] at h6; cases h6
      · exact custB_ok h6
    · intro hcu w1 ptr hm
      rcases h7 with h7 | h7
      · rw [hcu] at h7; cases h7
      · rw [show mmapLocked c w (c.askSize b a) (c.askAlign b a) t e.o = _ from hm] at h7
        dsimp only at h7
        split at h7
        · rename_i hl; rw [if_pos hl]; exact custB_ok h7
        · rename_i hl; rw [if_neg hl]; exact custB_ok h7
  | mmapAligned s a t e =>
    simp only [preB, Bool.and_eq_true, decide_eq_true_eq, List.any_eq_true, List.mem_range] at h
    obtain ⟨⟨⟨⟨h1, h2⟩, ⟨i, hi, hh⟩⟩, h4⟩, h5⟩ := h
    exact ⟨h1, h2, ⟨i, hh, by omega⟩, h4, envB_ok h5⟩
  | setFactory b => trivial

/-- Run a story, checking what callers and the environment guarantee. -/
def run (c : Cfg) : W → List SEv → Option (W × List (Option (Nat × Nat)))
  | w, [] => some (w, [])
  | w, x :: xs =>
    if preB c w x then
      match step c w x.ev with
      | none => none
      | some (w', r) => (run c w' xs).map fun y => (y.1, r :: y.2)
    else none

theorem run_reach {c : Cfg} {xs : List SEv} : ∀ {w w' : W} {rs}, Reach c w → run c w xs = some (w', rs) → Reach c w' := by
  induction xs with
  | nil => intro w w' rs h hr; cases hr; exact h
  | cons x l ih =>
    intro w w' rs h hr
    unfold run at hr
    split at hr
    · rename_i hp
      split at hr
      · cases hr
      · rename_i w2 r h2
        simp only [Option.map_eq_some_iff, Prod.mk.injEq] at hr
        obtain ⟨⟨w3, rs3⟩, h3, rfl, -⟩ := hr
        exact ih (h.step (preB_ok hp) h2) h3
    · cases hr

theorem get_reach {c : Cfg} {xs : List SEv} (h : (run c W.init xs).isSome = true) : Reach c ((run c W.init xs).get h).1 :=
  run_reach (rs := ((run c W.init xs).get h).2) .init (Option.some_get h).symm

theorem huge_of_get {c : Cfg} {w : W} {t : Tag} {n : Nat} {e : Env} {l : List (Nat × Nat)}
    (hc : c.OK) (hw : Reach c w) (hl : ∀ g ∈ l, g ∈ w.given) (hlh : ∀ g ∈ l, g.1 % c.huge = 0 ∧ g.2 % c.huge = 0)
    (hp : preB c w (.allocate (n * c.huge) c.huge t e) = true) (hf : w.custom = false)
    (hr : ∀ r, w.region t = some r → r.custom = false) (h : (allocate c w (n * c.huge) c.huge t e.o).isSome = true) :
    HugeAllocator.SysOK (l.map (hugeRange c)) n (((allocate c w (n * c.huge) c.huge t e.o).get h).2.map (hugeRange c)) :=
  huge_assumption (w' := ((allocate c w (n * c.huge) c.huge t e.o).get h).1) hc hw hl hlh (preB_ok hp) hf hr (Option.some_get h).symm

/-- 4 KiB pages, 2 MiB hugepages, mappings of 1 GiB, two partitions. -/
def cfg : Cfg := ⟨12, 21, 30, 2, 2, true⟩
theorem cfg_ok : cfg.OK := ⟨by decide, by decide, by decide⟩

/-- The part of the address space of `kNormalP0` starts here. -/
def N0 : Nat := 4 * 2 ^ 42
def G : Nat := 2 ^ 30
def M : Nat := 2 ^ 20

/-- Two requests are served from one region, taken at a second attempt; a third needs another region, mapped just behind the
first.  A request of 3 GiB has a mapping of its own.  Metadata, and a reservation for guarded pages, have other tags.  Then
the kernel refuses. -/
def story : List SEv :=
  [.allocate (3 * M) 1 .normalP0 { rnds := [5 * G, 9 * G], kerns := [none, some (N0 + 9 * G)] },
   .allocate (5 * M) (16 * M) .normalP0 {},
   .allocate (1020 * M) 4096 .normalP0 { kerns := [some (N0 + 10 * G)] },
   .allocate (3 * G) (2 * G) .normalP0 { rnds := [40 * G], kerns := [some (N0 + 40 * G)] },
   .allocate (128 * M) 0 .metadata { rnds := [3 * G], kerns := [some (3 * 2 ^ 42 + 3 * G)] },
   .mmapAligned 8396800 4096 .sampled { rlast := 2 ^ 42 - 1, kerns := [some (2 ^ 42 - 2 ^ 24)] },
   .allocate (2 * G) 0 .cold { rnds := [0], kerns := [none] },
   .allocate (2 * M) 0 .normalP0 { }]

def storyRes : List (Option (Nat × Nat)) :=
  [some (N0 + 10 * G - 4 * M, 4 * M), some (N0 + 10 * G - 16 * M, 12 * M), some (N0 + 10 * G + 4 * M, 1020 * M),
   some (N0 + 40 * G, 3 * G), some (3 * 2 ^ 42 + 4 * G - 128 * M, 128 * M), some (2 ^ 42 - 2 ^ 24, 8396800), none,
   some (N0 + 10 * G + 2 * M, 2 * M)]

theorem story_run : (run cfg W.init story).map Prod.snd = some storyRes := by decide +kernel

theorem end_some : (run cfg W.init story).isSome = true := by decide +kernel
/-- The state after the story. -/
def end_ : W := ((run cfg W.init story).get end_some).1
theorem end_reach : Reach cfg end_ := get_reach end_some

-- `returned_disjoint`: seven ranges in five mappings
example : end_.given.length = 7 ∧ end_.mapped.length = 5 := by decide +kernel
example := returned_disjoint cfg_ok end_reach
example : end_.custom = false ∧ (Tag.normalP0 = .normalP0 → (end_.region .normalP0).map Region.custom = some false) := by decide +kernel

-- the next request is served from the region there is, one after it needs a mapping, which the kernel gives
def e1 : SEv := .allocate M 4096 .normalP0 {}
def e2 : SEv := .allocate (600 * M) 4096 .metadata { kerns := [some (3 * 2 ^ 42 + 4 * G)] }
def e3 : SEv := .allocate (600 * M) 4096 .metadata { }
example : preB cfg end_ e1 = true ∧ preB cfg end_ e2 = true ∧ preB cfg end_ e3 = true := by decide +kernel
example : ((step cfg end_ e1.ev).map Prod.snd, (step cfg end_ e2.ev).map Prod.snd, (step cfg end_ e3.ev).map Prod.snd) =
  (some (some (N0 + 10 * G, 2 * M)), some (some (3 * 2 ^ 42 + 4 * G - 728 * M, 600 * M)),
    some (some (3 * 2 ^ 42 + 4 * G - 728 * M, 600 * M))) := by decide +kernel

/-- A request for a part of the address space not used so far, where the kernel agrees with the first address. -/
def fresh : Env := { kerns := [some (2 * 2 ^ 42)] }
theorem fresh_pre : preB cfg end_ (.allocate M 4096 .cold fresh) = true := by decide +kernel
-- the hypotheses of `allocate_succeeds`
example : ∃ w' p n, allocate cfg end_ M 4096 .cold fresh.o = some (w', some (p, n)) :=
  allocate_succeeds cfg_ok end_reach (preB_ok fresh_pre) (by decide +kernel)
    (by intro r hr; have h : end_.region .cold = none := by decide +kernel
        rw [h] at hr; cases hr)
    (by decide) (by decide) rfl rfl rfl (by decide +kernel)
-- and of `huge_assumption`: the second hugepage range asked for
def fresh2 : Env := { kerns := [some (N0 + 43 * G)] }
theorem fresh2_pre : preB cfg end_ (.allocate (700 * cfg.huge) cfg.huge .normalP0 fresh2) = true := by decide +kernel
def fresh2_res : Option (Nat × Nat) := some (N0 + 43 * G, 1400 * M)
theorem fresh2_some : (allocate cfg end_ (700 * cfg.huge) cfg.huge .normalP0 fresh2.o).isSome = true := by decide +kernel
example : HugeAllocator.SysOK (end_.given.filter (fun g => getMemoryTag g.1 = 4) |>.map (hugeRange cfg)) 700
    (((allocate cfg end_ (700 * cfg.huge) cfg.huge .normalP0 fresh2.o).get fresh2_some).2.map (hugeRange cfg)) :=
  huge_of_get cfg_ok end_reach (fun g hg => (List.mem_filter.1 hg).1) (by decide +kernel) fresh2_pre (by decide +kernel)
    (by intro r hr; have h : (end_.region .normalP0).map Region.custom = some false := by decide +kernel
        rw [hr] at h; simpa using h) fresh2_some
example : ((allocate cfg end_ (700 * cfg.huge) cfg.huge .normalP0 fresh2.o).get fresh2_some).2 = fresh2_res := by decide +kernel

/-- A factory of the program: it returns the middle of its region, then a page at its start; a request that does not fit gets
a mapping of its own.  The regions of the default factory are forgotten. -/
def story2 : List SEv :=
  [.allocate (3 * M) 1 .normalP0 { rlast := 9 * G, kerns := [some (N0 + 9 * G)] },
   .setFactory true,
   .allocate 8192 4096 .normalP0 { kerns := [some (N0 + 10 * G)], cust2 := some (N0 + 10 * G + 4096, 12288) },
   .allocate 4096 0 .normalP0 { cust1 := some (N0 + 10 * G, 4096) },
   .allocate (2 * G) 0 .normalP0 { kerns := [some (N0 + 11 * G)], cust1 := some (N0 + 11 * G, 2 * G) },
   .allocate 4096 0 .normalP0 { kerns := [none, some (N0 + 64 * G)], rlast := 64 * G },
   .setFactory false,
   .allocate 4096 0 .normalP0 { kerns := [some (N0 + 65 * G)] }]
def story2Res : List (Option (Nat × Nat)) :=
  [some (N0 + 10 * G - 4 * M, 4 * M), none, some (N0 + 10 * G + 4096, 12288), some (N0 + 10 * G, 4096), some (N0 + 11 * G, 2 * G),
   none, none, some (N0 + 66 * G - 2 * M, 2 * M)]
theorem story2_run : (run cfg W.init story2).map Prod.snd = some story2Res := by decide +kernel

-- `too_large`
example : allocate cfg end_ (2 ^ 42 + 1) 8 .cold fresh.o = some (end_, none) := too_large (.inl (by decide))
example : allocate cfg end_ (2 ^ 64 - 1) 8 .cold fresh.o = some (end_, none) := too_large (.inl (by decide))

/-- The comment on `MmapAligned` (lines 185-186) asks for a size of at most `kTagMask`, which is 28 TiB.  But only 4 TiB have
the same tag: a reservation of 8 TiB for sampled memory passes all checks and includes addresses of cold memory. -/
theorem documented_bound_too_large :
    let o : Oracle := ({ rlast := 2 ^ 45, kerns := [some (2 ^ 45)] } : Env).o
    2 ^ 44 ≤ kTagMask ∧ EnvOK cfg W.init (2 ^ 44) 4096 .sampled o ∧
    (mmapAligned cfg W.init (2 ^ 44) 4096 .sampled o).map Prod.snd = some (some (2 ^ 45, 2 ^ 44)) ∧
    getMemoryTag (2 ^ 45) = Tag.sampled.val ∧ getMemoryTag (2 ^ 45 + 2 * 2 ^ 42) = Tag.cold.val :=
  ⟨by decide +kernel, envB_ok (e := { rlast := 2 ^ 45, kerns := [some (2 ^ 45)] }) (by decide +kernel),
    by decide +kernel, by decide +kernel, by decide +kernel⟩

/-- A finding: a mapping made for a large request is not given back when its pages cannot be unprotected: the call fails, no
region refers to the mapping, and the process keeps it. -/
theorem leak_if_unprotect_fails :
    let e : SEv := .allocate (3 * G) 0 .cold { rlast := 8 * G, kerns := [some (2 * 2 ^ 42 + 8 * G)], prot1 := false }
    preB cfg W.init e = true ∧
    (step cfg W.init e.ev).map (fun x => (x.2, x.1.mapped, x.1.region .cold)) = some (none, [(2 * 2 ^ 42 + 8 * G, 3 * G)], none) := by
  decide +kernel

-- `unmapped_if_no_region`
example : (step cfg W.init (SEv.allocate (3 * G) 0 .cold { rlast := 8 * G, kerns := [some (2 * 2 ^ 42 + 8 * G)], create := false }).ev).map
    (fun x => (x.2, x.1.mapped)) = some (none, []) := by decide +kernel

-- `Release`: 3 pages of 4 KiB of which only two are whole; only a part of a page; pages that have to be unlocked first
example : release cfg .dontNeed true 4196 12288 ⟨false, false, true⟩ ⟨false, false, false⟩ false = ⟨some (8192, 8192), true, false⟩ := by
  decide +kernel
example : release cfg .dontNeed true 4196 5000 ⟨true, true, true⟩ ⟨false, false, false⟩ false = ⟨none, false, false⟩ := by decide +kernel
example : release cfg .freeAndDontNeed true 4096 8192 ⟨false, true, false⟩ ⟨false, true, true⟩ true = ⟨some (4096, 8192), true, false⟩ := by
  decide +kernel
example : release cfg .never true 4096 8192 ⟨false, true, true⟩ ⟨false, true, true⟩ true = ⟨some (4096, 8192), false, true⟩ := by
  decide +kernel
end Verif.SystemAlloc
