import Verif.PageAllocator.Props
/-!
Witnesses for the hypotheses of `Props.lean`, and what is false of the limits and the release requests.  Hugepages of 8
pages, regions of 4 hugepages, pages of 8 KiB; one heap for normal and one for sampled memory.
-/
namespace Verif.PageAllocator
open Verif.PageHeap
open Verif.HugeAddressMap (Rng)

def demo : Cfg := ⟨false, 1, false, 8192⟩

/-- Cold memory first, then the partitions of normal memory, then sampled memory. -/
theorem preference (parts pageSize : Nat) (s2 : Bool) : (order ⟨true, parts, s2, pageSize⟩).head? = some .cold ∧
    (order ⟨true, 2, true, pageSize⟩ = [.cold, .normal 0, .normal 1, .sampled 0, .sampled 1]) ∧
    (order ⟨false, 1, false, pageSize⟩ = [.normal 0, .sampled 0]) := ⟨rfl, rfl, rfl⟩

/-- The kernel grants everything; no subrelease. -/
def yes : RelArgs := ⟨false, 1, false, false, 0, none, fun _ => false, fun _ _ => true, fun _ _ => true⟩
def agreeable : Pick := ⟨0, fun _ => true, yes⟩

def freshHeap : HP := HP.init 8 true fun _ => HugeRegion.R.new 4 8 0
theorem freshHeap_reach : PageHeap.Reach 4 8 false freshHeap [] [] := Reach.init true _

/-- The state after a list of events of the normal heap, with the given limits. -/
def worldOf (x : HP) (l : Lim) : World :=
  ⟨l, fun h => if h = .normal 0 then x else freshHeap, 0, 0, fun _ => agreeable⟩

def memOf (ob : List Rng) : Heap → List Rng := fun h => if h = .normal 0 then ob else []
def liveOf (L : List Run) : Heap → List Run := fun h => if h = .normal 0 then L else []

theorem good_of {x : HP} {ob : List Rng} {L : List Run} (h : PageHeap.Reach 4 8 false x ob L) (l : Lim) :
    Good 4 8 false demo (memOf ob) (liveOf L) (worldOf x l) := by
  intro a _
  unfold worldOf memOf liveOf
  dsimp only
  split
  · exact h
  · exact freshHeap_reach

theorem agreeable_willing (x : HP) (l : Lim) : Willing (worldOf x l) := fun _ => ⟨fun _ => rfl, fun _ _ => rfl, fun _ _ => rfl, fun _ => rfl⟩

theorem sizeMax_demo : 0 < demo.pageSize := by decide

/-! ### Two hugepages in the cache -/

def evsA : List Ev := [.new 24 1 false false false none (some ⟨10, 8⟩) 0 0, .delete ⟨80, 24, 1, false⟩ false 0 fun _ => true,
  .new 3 1 false false false none none 0 0, .refillDone 0]
theorem someA : (runAll 4 8 false freshHeap [] [] evsA).isSome = true := by decide +kernel
def heapA : HP := ((runAll 4 8 false freshHeap [] [] evsA).get someA).1
def obA : List Rng := ((runAll 4 8 false freshHeap [] [] evsA).get someA).2.1
def liveA : List Run := ((runAll 4 8 false freshHeap [] [] evsA).get someA).2.2.1
theorem reachA : PageHeap.Reach 4 8 false heapA obA liveA :=
  runAll_reach evsA freshHeap_reach (Option.some_get someA).symm

/-- One run of three pages in use, two cached hugepages, 24 pages backed. -/
example : (liveA.map fun r => (r.p, r.n)) = [(80, 3)] ∧ heapA.cache.size = 2 ∧ heapA.backed 4 8 = 24 ∧ heapA.fill.unacc = 0 := by
  decide +kernel

def off : Lim := Lim.init
def runLimit (x : HP) (l : Lim) (sub : Bool) : Option (Outcome × List Ask × Nat) :=
  (shrinkToLimit (env 4 8 false demo) demo sub (worldOf x l) 0).map fun y => (y.2.1, y.2.2, usage 4 8 demo y.1)

/-- No limit; a soft limit of 20 pages, met from the cache; of 2 pages, which cannot be met; as a hard limit: aborted. -/
example : runLimit heapA off true = some (.returned, [], 24 * 8192) ∧
    runLimit heapA { off with soft := 20 * 8192 } true =
      some (.returned, [⟨.normal 0, false, 4, 8⟩, ⟨.sampled 0, false, 0, 0⟩], 16 * 8192) ∧
    runLimit heapA { off with soft := 2 * 8192 } true =
      some (.returned, [⟨.normal 0, false, 22, 16⟩, ⟨.sampled 0, false, 6, 0⟩, ⟨.normal 0, true, 6, 5⟩, ⟨.sampled 0, true, 1, 0⟩], 3 * 8192) ∧
    runLimit heapA { off with soft := 2 * 8192, hard := 2 * 8192 } true =
      some (.aborted, [⟨.normal 0, false, 22, 16⟩, ⟨.sampled 0, false, 6, 0⟩, ⟨.normal 0, true, 6, 5⟩, ⟨.sampled 0, true, 1, 0⟩,
        ⟨.normal 0, false, 1, 0⟩, ⟨.sampled 0, false, 1, 0⟩, ⟨.normal 0, true, 1, 0⟩, ⟨.sampled 0, true, 1, 0⟩], 3 * 8192) := by
  decide +kernel

/-- The hypotheses of the theorems are met. -/
example : ∃ w' log, shrinkToLimit (env 4 8 false demo) demo true (worldOf heapA { off with soft := 2 * 8192, hard := 2 * 8192 }) 0 =
      some (w', .aborted, log) ∧ 2 * 8192 < usage 4 8 demo w' ∧ Exhausted 8 demo w' := by
  have h : (runLimit heapA { off with soft := 2 * 8192, hard := 2 * 8192 } true).map (fun x => x.1) = some .aborted := by decide +kernel
  unfold runLimit at h
  rw [Option.map_map] at h
  obtain ⟨⟨w', o, log⟩, e, e2⟩ := Option.map_eq_some_iff.1 h
  have e3 : o = .aborted := e2
  subst e3
  obtain ⟨-, h2, h3⟩ := abort_justified (by decide) (by decide) sizeMax_demo true _ 0 (good_of reachA _) e
  exact ⟨w', log, e, h2, h3 (agreeable_willing _ _)⟩

/-! ### C49: hugepages are broken although that is turned off -/

/-- `set_limit(4 pages, hard)` with subrelease turned off. -/
def hardOnly : Option (Outcome × List Ask × Nat) :=
  (setLimit (env 4 8 false demo) demo false (worldOf heapA off) (4 * 8192) .hard).map fun y => (y.2.1, y.2.2, usage 4 8 demo y.1)

/-- **C49 is false.**  With subrelease turned off and only a hard limit set, the limit is enforced by breaking up
hugepages: setting the hard limit lowers the soft limit to it, and what is done for the soft limit may break them. -/
theorem hugepages_broken_though_off : ∃ w' log, setLimit (env 4 8 false demo) demo false (worldOf heapA off) (4 * 8192) .hard =
    some (w', .returned, log) ∧ ∃ a ∈ log, a.breaking = true ∧ 0 < a.got := by
  have h : hardOnly = some (.returned, [⟨.normal 0, false, 20, 16⟩, ⟨.sampled 0, false, 4, 0⟩, ⟨.normal 0, true, 4, 5⟩], 3 * 8192) := by
    decide +kernel
  unfold hardOnly at h
  obtain ⟨⟨w', o, log⟩, e, e2⟩ := Option.map_eq_some_iff.1 h
  simp only [Prod.mk.injEq] at e2
  obtain ⟨q1, q2, -⟩ := e2
  rw [q1, q2] at e
  exact ⟨w', _, e, ⟨.normal 0, true, 4, 5⟩, by simp, rfl, by decide⟩

/-- C49 (partial): what is done for the hard limit alone, after the soft limit was given up, breaks no hugepage when that
is turned off.  Missing: what is done for the soft limit (false, above). -/
theorem hard_part_keeps_hugepages_partial {H N : Nat} {mode : Bool} {c : Cfg} (w : World) (pages : Nat) {w' : World} {ok : Bool} {log : List Ask}
    (h : shrinkHardBy (env H N mode c) c false w pages .hard = some (w', ok, log)) : ∀ a ∈ log, a.breaking = false := by
  obtain ⟨A, B, h1, -, h3, -, -, -, h7, -⟩ := (shrinkHardBy_attempt _ _ _ _ _ _ h).parts
  have : B = [] := h7 ⟨rfl, rfl⟩
  subst this
  rw [List.append_nil] at h1
  rw [h1]
  exact h3

example : (shrinkHardBy (env 4 8 false demo) demo false (worldOf heapA off) 20 .hard).map (fun x => x.2) =
    some (false, [⟨.normal 0, false, 20, 16⟩, ⟨.sampled 0, false, 4, 0⟩]) := by decide +kernel

/-! ### C33, C47: pages returned earlier -/

/-- Three pages on a new hugepage; the other five are returned to the kernel; the three are freed, so that the rest of the
hugepage is returned, too, without being reported; three pages on a hugepage again. -/
def evsB : List Ev := [.new 3 1 false false false none (some ⟨10, 8⟩) 0 0, .refillDone 0, .breakRest 100 0 yes,
  .delete ⟨80, 3, 1, false⟩ false 0 (fun _ => true), .putAnswer 0 true false 0, .new 3 1 false false false none none 0 0, .refillDone 0]
theorem someB : (runAll 4 8 false freshHeap [] [] evsB).isSome = true := by decide +kernel
def heapB : HP := ((runAll 4 8 false freshHeap [] [] evsB).get someB).1
def obB : List Rng := ((runAll 4 8 false freshHeap [] [] evsB).get someB).2.1
def liveB : List Run := ((runAll 4 8 false freshHeap [] [] evsB).get someB).2.2.1
theorem reachB : PageHeap.Reach 4 8 false heapB obB liveB :=
  runAll_reach evsB freshHeap_reach (Option.some_get someB).symm

example : (liveB.map fun r => (r.p, r.n)) = [(80, 3)] ∧ heapB.cache.size = 0 ∧ heapB.backed 4 8 = 8 ∧ heapB.fill.unacc = 3 := by
  decide +kernel

/-- **C47 is false.**  A hard limit of five pages, eight pages in use of which five are free: the three pages returned
earlier are taken for the excess; nothing is returned, the usage stays over the hard limit, and the process goes on. -/
theorem limit_not_kept : ∃ (w w' : World) (mem : Heap → List Rng) (live : Heap → List Run) (log : List Ask),
    Good 4 8 false demo mem live w ∧ Willing w ∧ w.lim.hard = 5 * 8192 ∧ w.lim.soft = 5 * 8192 ∧
    shrinkToLimit (env 4 8 false demo) demo true w 0 = some (w', .returned, log) ∧
    usage 4 8 demo w' = 8 * 8192 ∧ usage 4 8 demo w = 8 * 8192 := by
  have h : runLimit heapB { off with soft := 5 * 8192, hard := 5 * 8192 } true =
      some (.returned, [⟨.normal 0, false, 3, 0⟩, ⟨.sampled 0, false, 3, 0⟩, ⟨.normal 0, true, 3, 3⟩], 8 * 8192) := by decide +kernel
  unfold runLimit at h
  obtain ⟨⟨w', o, log⟩, e, e2⟩ := Option.map_eq_some_iff.1 h
  simp only [Prod.mk.injEq] at e2
  obtain ⟨q1, q2, q3⟩ := e2
  subst q1
  exact ⟨_, w', _, _, log, good_of reachB _, agreeable_willing _ _, rfl, rfl, e, q3, by decide +kernel⟩

/-- The hypotheses of `limit_kept_partial` are met with no such pages. -/
example : Good 4 8 false demo (memOf obA) (liveOf liveA) (worldOf heapA { off with soft := 20 * 8192, hard := 21 * 8192 }) ∧
    credit demo (worldOf heapA { off with soft := 20 * 8192, hard := 21 * 8192 }) = 0 ∧
    ((shrinkToLimit (env 4 8 false demo) demo true (worldOf heapA { off with soft := 20 * 8192, hard := 21 * 8192 }) 0).map fun x => x.2.1) =
      some .returned := ⟨good_of reachA _, by decide +kernel, by decide +kernel⟩

def withSub (w : World) : World := { w with script := fun _ => { agreeable with x := { yes with subrelease := true } } }

/-- **C33 is false: not exact.**  A request for one page reports three pages and returns none. -/
theorem release_not_exact : ∃ (w w' : World) (mem : Heap → List Rng) (live : Heap → List Run) (log : List Ask),
    Good 4 8 false demo mem live w ∧ Willing w ∧ Subreleasing w ∧ releaseAtLeast (env 4 8 false demo) demo w 1 = some (w', 3, log) ∧
    pages 4 8 demo w' = pages 4 8 demo w := by
  have h : (releaseAtLeast (env 4 8 false demo) demo (withSub (worldOf heapB off)) 1).map (fun x => (x.2.1, pages 4 8 demo x.1)) = some (3, 8) := by
    decide +kernel
  have hp : pages 4 8 demo (withSub (worldOf heapB off)) = 8 := by decide +kernel
  obtain ⟨⟨w', m, log⟩, e, e2⟩ := Option.map_eq_some_iff.1 h
  simp only [Prod.mk.injEq] at e2
  obtain ⟨q1, q2⟩ := e2
  subst q1
  exact ⟨withSub (worldOf heapB off), w', _, _, log, good_of reachB off, fun _ => ⟨fun _ => rfl, fun _ _ => rfl, fun _ _ => rfl, fun _ => rfl⟩,
    fun _ => ⟨rfl, rfl⟩, e, by rw [hp]; exact q2⟩

/-- A region with two free hugepages. -/
def evsC : List Ev := [.new 9 1 false true false (some ⟨40, 4⟩) none 0 0, .delete ⟨320, 9, 1, false⟩ false 0 fun _ => true]
theorem someC : (runAll 4 8 false freshHeap [] [] evsC).isSome = true := by decide +kernel
def heapC : HP := ((runAll 4 8 false freshHeap [] [] evsC).get someC).1
def obC : List Rng := ((runAll 4 8 false freshHeap [] [] evsC).get someC).2.1
def liveC : List Run := ((runAll 4 8 false freshHeap [] [] evsC).get someC).2.2.1
theorem reachC : PageHeap.Reach 4 8 false heapC obC liveC :=
  runAll_reach evsC freshHeap_reach (Option.some_get someC).symm

/-- **C33 is false: less than requested although more could be returned.**  Sixteen pages of a region are free and
backed; a request for sixteen pages returns eight (a tenth of the free pages, rounded up to a hugepage). -/
theorem release_leaves_region : ∃ (w w' : World) (mem : Heap → List Rng) (live : Heap → List Run) (log : List Ask),
    Good 4 8 false demo mem live w ∧ Willing w ∧ Subreleasing w ∧ releaseAtLeast (env 4 8 false demo) demo w 16 = some (w', 8, log) ∧
    (w'.heaps (.normal 0)).regs.freeBacked = 1 := by
  have h : (releaseAtLeast (env 4 8 false demo) demo (withSub (worldOf heapC off)) 16).map
      (fun x => (x.2.1, (x.1.heaps (.normal 0)).regs.freeBacked)) = some (8, 1) := by decide +kernel
  obtain ⟨⟨w', m, log⟩, e, e2⟩ := Option.map_eq_some_iff.1 h
  simp only [Prod.mk.injEq] at e2
  obtain ⟨q1, q2⟩ := e2
  subst q1
  exact ⟨withSub (worldOf heapC off), w', _, _, log, good_of reachC off, fun _ => ⟨fun _ => rfl, fun _ _ => rfl, fun _ _ => rfl, fun _ => rfl⟩,
    fun _ => ⟨rfl, rfl⟩, e, q2⟩

/-! ### C48: the surplus of a release -/

/-- Requests of one page each, one after the other: surplus carried over and bytes returned to the kernel. -/
def requests : Nat → Nat → World → Option (List (Nat × Nat))
  | 0, _, _ => some []
  | n + 1, extra, w =>
    match releaserRelease (env 4 8 false demo) demo extra w 8192 with
    | none => none
    | some (extra', w', _, _) =>
      match requests n extra' w' with
      | none => none
      | some l => some ((extra', usage 4 8 demo w - usage 4 8 demo w') :: l)

/-- **C48 is false.**  Three requests of one page each: the first returns eight pages and leaves a surplus of seven; the
second is covered by the surplus and forgets it; the third returns eight pages again. -/
theorem surplus_lost : requests 3 0 (worldOf heapA off) = some [(7 * 8192, 8 * 8192), (0, 0), (7 * 8192, 8 * 8192)] := by decide +kernel

/-- `malloc_trim` asks for nothing, so that its value is always 0, even when memory was returned. -/
theorem trim_returns_zero {W : Type} (E : Env W) (c : Cfg) (extra : Nat) (w : W) {x : Nat × W × Nat} (h : mallocTrim E c extra w = some x) :
    x.2.2 = 0 := by
  unfold mallocTrim releaserRelease at h
  rw [if_pos (Nat.zero_le _)] at h
  dsimp only at h
  cases hr : releaseAtLeast E c w (if 0 > 0 then lengthCeil c 0 else 0) with
  | none => rw [hr] at h; cases h
  | some y =>
    obtain ⟨w', got, log⟩ := y
    rw [hr] at h
    dsimp only at h
    split at h
    · cases h
    · rename_i a b r l e
      split at e
      · cases e; cases h; rfl
      · rename_i hn
        have : got * c.pageSize = 0 := by omega
        rw [this] at e
        cases e; cases h; rfl

example : (mallocTrim (env 4 8 false demo) demo 0 (worldOf heapC off)).map (fun x => (x.1, x.2.2, usage 4 8 demo x.2.1)) =
    some (8 * 8192, 0, 8 * 8192) ∧ usage 4 8 demo (worldOf heapC off) = 16 * 8192 := by decide +kernel

end Verif.PageAllocator
