import Verif.PageAllocator.Story
import Verif.PageAllocator.CounterSpec
/-!
# The counts of limit hits and the peak (C85)

The properties `tcmalloc.soft_limit_hits`, `tcmalloc.hard_limit_hits` and
`tcmalloc.successful_shrinks_after_{soft,hard}_limit_hit` (tcmalloc.cc:491-500), and the peak of the usage
(page_allocator.h `peak_stats`), over the whole life of the page allocator.
-/
namespace Verif.PageAllocator
open Verif.PageHeap
open Verif.HugeAddressMap (Rng)

/-! ## One check -/

variable {H N : Nat} {mode : Bool} {c : Cfg} {mem : Heap → List Rng} {live : Heap → List Run}

/-- The peak after a check. -/
def peaked (u : Nat) (app : Nat) (l : Lim) : Lim :=
  if l.peak < u then { l with peak := u, peakApp := app } else l

theorem notePeak_peaked (w : World) (n : Nat) :
    notePeak (env H N mode c) c w n = { w with lim := peaked (usage H N c w) (w.app + n * c.pageSize) w.lim } := by
  unfold notePeak peaked
  rw [show (env H N mode c).usage w = usage H N c w from rfl, show (env H N mode c).st w = w.lim from rfl]
  by_cases h : w.lim.peak < usage H N c w
  · rw [if_pos h, if_pos h]; rfl
  · rw [if_neg h, if_neg h]

theorem peaked_keep (u a : Nat) (l : Lim) : (peaked u a l).soft = l.soft ∧ (peaked u a l).hard = l.hard ∧
    (peaked u a l).hitsSoft = l.hitsSoft ∧ (peaked u a l).hitsHard = l.hitsHard ∧
    (peaked u a l).okSoft = l.okSoft ∧ (peaked u a l).okHard = l.okHard := by
  unfold peaked; split <;> exact ⟨rfl, rfl, rfl, rfl, rfl, rfl⟩

/-- What a check within the limit leaves. -/
theorem within_counts (sub : Bool) (w : World) (n : Nat) (h : w.lim.soft = sizeMax ∨ usage H N c w ≤ w.lim.soft) :
    shrinkToLimit (env H N mode c) c sub w n =
      some ({ w with lim := peaked (usage H N c w) (w.app + n * c.pageSize) w.lim }, .returned, []) := by
  unfold shrinkToLimit
  rw [notePeak_peaked]
  dsimp only
  rw [show (env H N mode c).st { w with lim := peaked (usage H N c w) (w.app + n * c.pageSize) w.lim } =
    peaked (usage H N c w) (w.app + n * c.pageSize) w.lim from rfl, (peaked_keep _ _ _).1,
    show (env H N mode c).usage w = usage H N c w from rfl]
  rcases h with h | h
  · rw [if_pos h]
  · rw [if_pos h]
    split <;> rfl

/-- C85: what one check over the limit counts.  The soft limit is hit once, and the hard limit if the usage is above it too;
a successful shrink is counted for the soft limit exactly if the first attempt reported enough, for the hard limit exactly
if there was a second attempt, and it reported enough. -/
theorem over_counts (hN : 2 ≤ N) (hH : 0 < H) (hp : 0 < c.pageSize) (sub : Bool) (w : World) (n : Nat)
    (hg : Good H N mode c mem live w) (hm : w.lim.soft ≠ sizeMax) (hs : w.lim.soft < usage H N c w) :
    ∃ w' o p A ok B, shrinkToLimit (env H N mode c) c sub w n = some (w', o, A ++ B) ∧ Good H N mode c mem live w' ∧
      CeilPages c (usage H N c w - w.lim.soft) p ∧ Attempt c p False A ok ∧
      (ok = true → B = [] ∧ o = .returned) ∧
      (B ≠ [] → w.lim.hard < usage H N c w) ∧
      (B = [] → o = .returned) ∧
      (o = .assertFailed ↔ B ≠ [] ∧ o ≠ .aborted ∧ w'.lim.okHard ≠ w'.lim.hitsHard) ∧
      w'.lim = { peaked (usage H N c w) (w.app + n * c.pageSize) w.lim with
        hard := if o = .aborted then sizeMax else w.lim.hard
        hitsSoft := w.lim.hitsSoft + 1
        hitsHard := w.lim.hitsHard + (if w.lim.hard < usage H N c w then 1 else 0)
        okSoft := w.lim.okSoft + (if ok = true then 1 else 0)
        okHard := w.lim.okHard + (if B ≠ [] ∧ o ≠ .aborted then 1 else 0) } := by
  have hu : (env H N mode c).usage w = usage H N c w := rfl
  unfold shrinkToLimit
  rw [notePeak_peaked, hu]
  dsimp only
  generalize hl : peaked (usage H N c w) (w.app + n * c.pageSize) w.lim = l
  obtain ⟨l1, l2, l3, l4, l5, l6⟩ := peaked_keep (usage H N c w) (w.app + n * c.pageSize) w.lim
  rw [hl] at l1 l2 l3 l4 l5 l6
  rw [show (env H N mode c).st { w with lim := l } = l from rfl, if_neg (by rw [l1]; exact hm), if_neg (by rw [l1]; omega), l1]
  generalize hL : ({ l with soft := w.lim.soft, hitsSoft := l.hitsSoft + 1, hitsHard := if l.hard < usage H N c w then l.hitsHard + 1 else l.hitsHard } : Lim) = L
  have hL' : L = { l with hitsSoft := w.lim.hitsSoft + 1, hitsHard := w.lim.hitsHard + (if w.lim.hard < usage H N c w then 1 else 0) } := by
    rw [← hL, l2, l3, l4, ← l1]
    congr 1
    split <;> rfl
  rw [show (env H N mode c).put { w with lim := l } L = { w with lim := L } from rfl]
  have hg1 : Good H N mode c mem live { w with lim := L } := hg.lim L
  have hcp := lengthCeil_spec c hp (usage H N c w - w.lim.soft)
  obtain ⟨w2, m, ok, A, e, k, hok, ht, hex⟩ := shrinkHardBy_world hN hH sub hg1 (lengthCeil c (usage H N c w - w.lim.soft)) .soft
  have hat := shrinkHardBy_attempt _ _ _ _ _ _ e
  have hat' : Attempt c (lengthCeil c (usage H N c w - w.lim.soft)) False A ok := by
    have hF : (Kind.soft = Kind.hard ∧ sub = false) = False := by simp
    rwa [hF] at hat
  have hpl : usage H N c w2 ≤ usage H N c w := by
    have := Nat.mul_le_mul_right c.pageSize k.pages_le
    have hm2 : w2.metadata = w.metadata := k.metadata
    rw [show pages H N c { w with lim := L } = pages H N c w from rfl] at this
    unfold usage
    omega
  have hst : (env H N mode c).st w2 = L := k.lim
  have hlim : w2.lim = L := k.lim
  rw [e]
  cases ok with
  | true =>
    refine ⟨{ w2 with lim := { w2.lim with okSoft := w2.lim.okSoft + 1 } }, .returned, _, A, true, [],
      by rw [List.append_nil]; rfl, k.good, hcp, hat', fun _ => ⟨rfl, rfl⟩, fun h => absurd rfl h,
      fun _ => rfl, by simp, ?_⟩
    dsimp only
    rw [hlim, hL']
    simp [l1, l2, l5, l6]
  | false =>
    simp only []
    have hus : (env H N mode c).usage w2 = usage H N c w2 := rfl
    have hLh : L.hard = w.lim.hard := by rw [hL']; exact l2
    unfold hardPhase
    rw [hst, hus]
    dsimp only
    rw [hLh]
    by_cases hh : w.lim.hard < sizeMax
    · rw [if_pos hh]
      by_cases hle : usage H N c w2 ≤ w.lim.hard
      · rw [if_pos hle]
        refine ⟨_, _, _, A, false, [], rfl, k.good, hcp, hat', (fun h => by cases h), fun h => absurd rfl h,
          fun _ => rfl, by simp, ?_⟩
        rw [hlim, hL']
        simp [l1, l2, l5, l6]
      · rw [if_neg hle]
        obtain ⟨w3, m3, ok3, B, e3, k3, hok3, ht3, -⟩ :=
          shrinkHardBy_world hN hH sub k.good (lengthCeil c (usage H N c w2 - w.lim.hard)) .hard
        have hat3 := shrinkHardBy_attempt _ _ _ _ _ _ e3
        have hB : B ≠ [] := by
          intro hB
          obtain ⟨A', B', q1, q2, -⟩ := hat3.parts
          rw [hB] at q1
          have : A' = [] := (List.append_eq_nil_iff.1 q1.symm).1
          rw [this] at q2
          exact order_ne c q2.symm
        have hst3 : (env H N mode c).st w3 = L := k3.lim.trans k.lim
        rw [e3]
        cases ok3 with
        | true =>
          dsimp only
          rw [hst3]
          refine ⟨_, _, _, A, false, B, rfl, k3.good, hcp, hat', (fun h => by cases h), fun _ => by omega,
            fun h => absurd h hB, ?_, ?_⟩
          · show _ ↔ B ≠ [] ∧ _ ∧ (L.okHard + 1 ≠ L.hitsHard)
            by_cases q : L.okHard + 1 = L.hitsHard
            · simp [q]
            · simp [q, hB]
          · show ({ L with okHard := L.okHard + 1 } : Lim) = _
            have hna : ∀ (P : Prop) [Decidable P], (if P then Outcome.returned else .assertFailed) ≠ .aborted := by
              intro P _; split <;> simp
            rw [if_neg (hna _), if_pos (c := B ≠ [] ∧ _) ⟨hB, hna _⟩, hL']
            simp [l1, l2, l5, l6]
        | false =>
          dsimp only
          rw [hst3]
          refine ⟨_, _, _, A, false, B, rfl, k3.good, hcp, hat', (fun h => by cases h), fun _ => by omega,
            fun h => absurd h hB, by simp, ?_⟩
          show ({ L with hard := sizeMax } : Lim) = _
          rw [hL']
          simp [l1, l5, l6]
    · rw [if_neg hh]
      refine ⟨_, _, _, A, false, [], rfl, k.good, hcp, hat', (fun h => by cases h), fun h => absurd rfl h,
        fun _ => rfl, by simp, ?_⟩
      rw [hlim, hL']
      simp [l1, l2, l5, l6]

/-! ## The whole life -/

/-- What the counters say of the checks. -/
structure Counts (l : Lim) (g : Seen) : Prop where
  soft : l.soft = g.soft
  hard : l.hard = g.hard
  le : g.soft ≤ g.hard
  hardMax : g.hard ≤ sizeMax
  hitsSoft : l.hitsSoft = softHits g.checks
  hitsHard : l.hitsHard = hardHits g.checks
  ok : l.okSoft + l.okHard ≤ l.hitsSoft
  okHard : l.okHard ≤ l.hitsHard
  peak : IsPeak l.peak l.peakApp g.checks

theorem isPeak_peaked {p a u x : Nat} {l : Lim} {g : List Check} {s h : Nat} (hp : p = l.peak) (ha : a = l.peakApp)
    (i : IsPeak p a g) : IsPeak (peaked u x l).peak (peaked u x l).peakApp (⟨u, s, h, x⟩ :: g) := by
  refine ⟨p, a, i, ?_, ?_⟩
  · intro q
    unfold peaked
    dsimp only at q
    rw [if_pos (by omega)]
    exact ⟨rfl, rfl⟩
  · intro q
    unfold peaked
    dsimp only at q
    rw [if_neg (by omega)]
    exact ⟨hp.symm, ha.symm⟩

theorem check_counts (hN : 2 ≤ N) (hH : 0 < H) (hp : 0 < c.pageSize) {sub : Bool} {w w' : World} {n : Nat} {g : Seen}
    {o : Outcome} {log : List Ask} (hg : Good H N mode c mem live w) (h : Counts w.lim g) (hu : usage H N c w ≤ sizeMax)
    (e : shrinkToLimit (env H N mode c) c sub w n = some (w', o, log)) (ho : o ≠ .aborted) :
    Good H N mode c mem live w' ∧ Counts w'.lim (g.check (usage H N c w) (w.app + n * c.pageSize)) := by
  obtain ⟨h1, h2, h3, h4, h5, h6, h7, h8, h9⟩ := h
  obtain ⟨l1, l2, l3, l4, l5, l6⟩ := peaked_keep (usage H N c w) (w.app + n * c.pageSize) w.lim
  have hpk := isPeak_peaked (u := usage H N c w) (x := w.app + n * c.pageSize) (s := g.soft) (h := g.hard) rfl rfl h9
  by_cases hin : w.lim.soft = sizeMax ∨ usage H N c w ≤ w.lim.soft
  · rw [within_counts sub w n hin] at e
    simp only [Option.some.injEq, Prod.mk.injEq] at e
    obtain ⟨rfl, -, -⟩ := e
    have hns : ¬ g.soft < usage H N c w := by rw [← h1]; rcases hin with q | q <;> omega
    have hnh : ¬ g.hard < usage H N c w := by omega
    refine ⟨hg, ?_⟩
    constructor
    · exact l1.trans h1
    · exact l2.trans h2
    · exact h3
    · exact h4
    · show _ = softHits (_ :: g.checks)
      rw [softHits, List.countP_cons_of_neg (by simp; omega)]; exact l3.trans h5
    · show _ = hardHits (_ :: g.checks)
      rw [hardHits, List.countP_cons_of_neg (by simp; omega)]; exact l4.trans h6
    · dsimp only; omega
    · dsimp only; omega
    · exact hpk
  · rw [not_or] at hin
    obtain ⟨x, o', p, A, ok, B, e1, e2, -, -, q1, q2, q3, -, e3⟩ := over_counts hN hH hp sub w n hg hin.1 (by omega)
    rw [e1] at e
    simp only [Option.some.injEq, Prod.mk.injEq] at e
    obtain ⟨rfl, rfl, -⟩ := e
    refine ⟨e2, ?_⟩
    rw [e3]
    have hs : g.soft < usage H N c w := by omega
    constructor
    · exact l1.trans h1
    · show (if _ then _ else _) = _
      rw [if_neg ho]; exact h2
    · exact h3
    · exact h4
    · show _ = softHits (_ :: g.checks)
      rw [softHits, List.countP_cons_of_pos (by simp; omega)]; dsimp only; rw [h5]; rfl
    · show _ = hardHits (_ :: g.checks)
      rw [hardHits, List.countP_cons]; dsimp only; rw [h6, h2]; simp [hardHits]
    · dsimp only
      cases ok with
      | true =>
        have := (q1 rfl).1
        simp [this]; omega
      | false =>
        rw [if_neg (c := false = true) (by simp)]
        split <;> omega
    · dsimp only
      by_cases hB : B = []
      · rw [if_neg (fun hh => hh.1 hB)]; omega
      · rw [if_pos (q2 hB)]; split <;> omega
    · exact hpk

/-- Setting a limit is storing it, as the observer does, and checking. -/
theorem setLimit_eq (sub : Bool) (w : World) (limit : Nat) (k : Kind) {g : Seen} (h : Counts w.lim g) (hl : limit ≤ sizeMax) :
    ∃ l, setLimit (env H N mode c) c sub w limit k = shrinkToLimit (env H N mode c) c sub { w with lim := l } 0 ∧
      Counts l (g.set limit k) := by
  obtain ⟨h1, h2, h3, h4, h5, h6, h7, h8, h9⟩ := h
  unfold setLimit
  rw [show (env H N mode c).st w = w.lim from rfl]
  cases k with
  | soft =>
    dsimp only
    refine ⟨_, rfl, ?_⟩
    split
    · refine ⟨?_, h2, ?_, h4, h5, h6, h7, h8, h9⟩
      · show w.lim.hard = min limit g.hard; omega
      · show min limit g.hard ≤ g.hard; omega
    · refine ⟨?_, h2, ?_, h4, h5, h6, h7, h8, h9⟩
      · show limit = min limit g.hard; omega
      · show min limit g.hard ≤ g.hard; omega
  | hard =>
    dsimp only
    refine ⟨_, rfl, ?_⟩
    split
    · refine ⟨?_, rfl, ?_, hl, h5, h6, h7, h8, h9⟩
      · show limit = min g.soft limit; omega
      · show min g.soft limit ≤ limit; omega
    · refine ⟨?_, rfl, ?_, hl, h5, h6, h7, h8, h9⟩
      · show w.lim.soft = min g.soft limit; omega
      · show min g.soft limit ≤ limit; omega

theorem life_counts (hN : 2 ≤ N) (hH : 0 < H) (hp : 0 < c.pageSize) {w : World} {g : Seen} (h : Life H N mode c w g) :
    (∃ mem live, Good H N mode c mem live w) ∧ Counts w.lim g := by
  induction h with
  | init hg e =>
    refine ⟨⟨_, _, hg⟩, ?_⟩
    rw [e]
    exact ⟨rfl, rfl, Nat.le_refl _, Nat.le_refl _, rfl, rfl, Nat.le_refl _, Nat.le_refl _, rfl, rfl⟩
  | other _ hg e ih => exact ⟨⟨_, _, hg⟩, by rw [e]; exact ih.2⟩
  | check sub n _ hu e ho ih =>
    obtain ⟨⟨mem, live, hg⟩, hc⟩ := ih
    obtain ⟨q1, q2⟩ := check_counts hN hH hp hg hc hu e ho
    exact ⟨⟨_, _, q1⟩, q2⟩
  | @set w w' g o log sub limit k _ hu hl e ho ih =>
    obtain ⟨⟨mem, live, hg⟩, hc⟩ := ih
    obtain ⟨l, e1, e2⟩ := setLimit_eq (H := H) (N := N) (mode := mode) (c := c) sub w limit k hc hl
    rw [e1] at e
    obtain ⟨q1, q2⟩ := check_counts hN hH hp (mem := mem) (live := live) (w := { w with lim := l }) hg e2 hu e ho
    refine ⟨⟨_, _, q1⟩, ?_⟩
    have : w.app + 0 * c.pageSize = w.app := by omega
    rw [show ({ w with lim := l } : World).app = w.app from rfl, this] at q2
    exact q2

/-- C85: over the whole life of a process, the count of hits of a limit is the number of checks that found the usage above
it; no more successes are counted than hits; and the peak is the highest usage any check found, with the application's
bytes as they were when it was first found. -/
theorem limit_counts (hN : 2 ≤ N) (hH : 0 < H) (hp : 0 < c.pageSize) {w : World} {g : Seen} (h : Life H N mode c w g) :
    w.lim.hitsSoft = softHits g.checks ∧ w.lim.hitsHard = hardHits g.checks ∧
    w.lim.okSoft + w.lim.okHard ≤ w.lim.hitsSoft ∧ w.lim.okHard ≤ w.lim.hitsHard ∧ w.lim.hitsHard ≤ w.lim.hitsSoft ∧
    IsPeak w.lim.peak w.lim.peakApp g.checks ∧ w.lim.soft = g.soft ∧ w.lim.hard = g.hard := by
  obtain ⟨-, q⟩ := life_counts hN hH hp h
  refine ⟨q.hitsSoft, q.hitsHard, q.ok, q.okHard, ?_, q.peak, q.soft, q.hard⟩
  rw [q.hitsSoft, q.hitsHard]
  have hall : ∀ k ∈ g.checks, k.soft ≤ k.hard := by
    clear q
    induction h with
    | init => simp [Seen.init]
    | other _ _ _ ih => exact ih
    | check sub n hw _ _ _ ih =>
      intro k hk
      rcases List.mem_cons.1 hk with rfl | hk
      · exact (life_counts hN hH hp hw).2.le
      · exact ih k hk
    | @set w w' g o log sub limit kd hw _ hl _ _ ih =>
      intro k hk
      rcases List.mem_cons.1 hk with rfl | hk
      · have := (life_counts hN hH hp hw).2.le
        cases kd <;> simp only [Seen.set] <;> omega
      · exact ih k (by cases kd <;> exact hk)
  apply List.countP_mono_left
  intro k hk hx
  have := hall k hk
  simp only [decide_eq_true_eq] at hx ⊢
  omega

/-- C85: the peak is an upper bound of the usage at every check, and is the usage at one of them (or 0 before any). -/
theorem peak_is_max {p a : Nat} : ∀ {l : List Check}, IsPeak p a l →
    (∀ k ∈ l, k.usage ≤ p) ∧ ((p = 0 ∧ a = 0) ∨ ∃ k ∈ l, k.usage = p ∧ k.app = a)
  | [], h => ⟨by simp, Or.inl h⟩
  | k :: l, ⟨p', a', h, h1, h2⟩ => by
    obtain ⟨i1, i2⟩ := peak_is_max h
    by_cases q : p' < k.usage
    · obtain ⟨rfl, rfl⟩ := h1 q
      refine ⟨?_, Or.inr ⟨k, by simp, rfl, rfl⟩⟩
      intro x hx
      rcases List.mem_cons.1 hx with rfl | hx
      · exact Nat.le_refl _
      · exact Nat.le_trans (i1 x hx) (by omega)
    · obtain ⟨rfl, rfl⟩ := h2 (by omega)
      refine ⟨?_, ?_⟩
      · intro x hx
        rcases List.mem_cons.1 hx with rfl | hx
        · omega
        · exact i1 x hx
      · rcases i2 with i2 | ⟨x, hx, i2⟩
        · exact Or.inl i2
        · exact Or.inr ⟨x, List.mem_cons_of_mem _ hx, i2⟩

/-! ## The assertion of line 133, and a concrete life -/

/-- First a hard limit of 4 pages is set with 24 in use. -/
def first : Option (World × Outcome × List Ask) := setLimit (env 4 8 false demo) demo true (worldOf heapA off) (4 * 8192) .hard

theorem first_some : first.isSome = true := by decide +kernel
def afterFirst : World := (first.get first_some).1

/-- Then 24 pages are in use again, and the kernel refuses the first four requests. -/
def refuses : Pick := ⟨0, fun _ => false, { yes with okF := fun _ _ => false, okR := fun _ _ => false }⟩
def againOf (l : Lim) : World := { worldOf heapA l with script := fun i => if i < 4 then refuses else agreeable }
def again : World := againOf afterFirst.lim
def second : Option (World × Outcome × List Ask) := shrinkToLimit (env 4 8 false demo) demo true again 0

theorem second_some : second.isSome = true := by decide +kernel

def seen1 : Seen := (Seen.init.set (4 * 8192) .hard).check (24 * 8192) 0

theorem life_of {r : World × Outcome × List Ask} (hr : first = some r) (ho : r.2.1 ≠ .aborted) :
    Life 4 8 false demo r.1 seen1 := by
  have hu : usage 4 8 demo (worldOf heapA off) = 24 * 8192 := by decide +kernel
  obtain ⟨w, o, log⟩ := r
  have h := Life.set true (4 * 8192) .hard (Life.init (good_of reachA off) rfl) (by rw [hu]; decide +kernel) (by decide +kernel) hr ho
  rw [hu] at h
  exact h

theorem life1 : Life 4 8 false demo afterFirst seen1 :=
  life_of (Option.some_get first_some).symm (by decide +kernel)

theorem againOf_good (l : Lim) : Good 4 8 false demo (memOf obA) (liveOf liveA) (againOf l) := good_of reachA l
theorem againOf_lim (l : Lim) : (againOf l).lim = l := rfl

theorem life2 : Life 4 8 false demo again seen1 :=
  Life.other life1 (mem := memOf obA) (live := liveOf liveA) (againOf_good _) (againOf_lim _)

/-- The hypotheses of `limit_counts` are met: one check found 24 pages in use with both limits at 4, and shrinking for the
soft limit sufficed. -/
example : afterFirst.lim = ⟨4 * 8192, 4 * 8192, 1, 1, 1, 0, 24 * 8192, 0⟩ := by decide +kernel
example : softHits seen1.checks = 1 ∧ hardHits seen1.checks = 1 ∧ IsPeak (24 * 8192) 0 seen1.checks := by
  refine ⟨by decide, by decide, 0, 0, ⟨rfl, rfl⟩, fun _ => ⟨rfl, rfl⟩, fun h => ?_⟩
  exact absurd h (by decide)

/-- **C85 is false in one point.**  The code asserts, after a successful shrink for the hard limit, that every hit of the hard
limit was followed by one.  A hit that was dealt with by shrinking for the soft limit is not; so in builds with assertions a
process that has met its hard limit twice, with all memory given back that had to be, is aborted. -/
theorem hard_hits_assertion_fails : ∃ (w : World) (g : Seen) (w' : World) (log : List Ask), Life 4 8 false demo w g ∧
    shrinkToLimit (env 4 8 false demo) demo true w 0 = some (w', .assertFailed, log) ∧
    usage 4 8 demo w' ≤ w'.lim.hard ∧ w'.lim.hitsHard = 2 ∧ w'.lim.okHard = 1 := by
  have e : shrinkToLimit (env 4 8 false demo) demo true again 0 = some (second.get second_some) :=
    (Option.some_get second_some).symm
  have ho : (second.get second_some).2.1 = .assertFailed := by decide +kernel
  refine ⟨again, seen1, (second.get second_some).1, (second.get second_some).2.2, life2, ?_, ?_⟩
  · rw [e, ← ho]
  · decide +kernel

/-- C85 (partial): the assertion holds as long as every earlier hit of the hard limit was followed by a successful shrink
for it, and this one is. -/
theorem hard_hits_assertion_partial (hN : 2 ≤ N) (hH : 0 < H) (hp : 0 < c.pageSize) (sub : Bool) (w : World) (n : Nat)
    (hg : Good H N mode c mem live w) (h : w.lim.okHard = w.lim.hitsHard) {w' : World} {o : Outcome} {log : List Ask}
    (e : shrinkToLimit (env H N mode c) c sub w n = some (w', o, log)) : o ≠ .assertFailed := by
  by_cases hin : w.lim.soft = sizeMax ∨ usage H N c w ≤ w.lim.soft
  · rw [within_counts sub w n hin] at e
    simp only [Option.some.injEq, Prod.mk.injEq] at e
    rw [← e.2.1]; simp
  · rw [not_or] at hin
    obtain ⟨x, o', p, A, ok, B, e1, e2, -, -, q1, q2, q3, q4, e3⟩ := over_counts hN hH hp sub w n hg hin.1 (by omega)
    rw [e1] at e
    simp only [Option.some.injEq, Prod.mk.injEq] at e
    obtain ⟨rfl, rfl, -⟩ := e
    intro ha
    obtain ⟨a1, a2, a3⟩ := q4.1 ha
    apply a3
    rw [e3]
    dsimp only
    rw [if_pos ⟨a1, a2⟩, if_pos (q2 a1), h]

end Verif.PageAllocator
