import Verif.ThreadCache.Props
/-! The hypotheses of the theorems about the per-thread caches are met: stories. -/
namespace Verif.ThreadCache

variable {cfg : Cfg}

def idleB (w : W) (id : Nat) : Bool := match find w.heaps id with | some h => decide (h.st = .idle) | none => false

/-- An executable check of the precondition. -/
def preB (cfg : Cfg) (w : W) : Ev → Bool
  | .create id => (find w.heaps id).isNone
  | .malloc id k => idleB w id && decide (cfg.Used k)
  | .free id k o => idleB w id && w.user.contains (k, o)
  | .act id => (find w.heaps id).isSome
  | .fetched id l =>
    match find w.heaps id with
    | some h => match h.st with
      | .fetch k n => decide (l.length ≤ n) && decide l.Nodup && l.all fun o => !(w.objects cfg).contains (k, o)
      | _ => false
    | none => false
  | .delete id => idleB w id
  | .direct k o => w.user.contains (k, o)
  | .resize n _ => decide (n < 2 ^ 63)

theorem idleB_ok {w : W} {id : Nat} (h : idleB w id = true) : ∃ t, find w.heaps id = some t ∧ t.st = .idle := by
  unfold idleB at h
  split at h
  · rename_i t e; exact ⟨t, e, of_decide_eq_true h⟩
  · cases h

theorem preB_ok {w : W} {e : Ev} (h : preB cfg w e = true) : Pre cfg w e := by
  cases e with
  | create id => simpa [preB, Pre] using h
  | malloc id k =>
    simp only [preB, Bool.and_eq_true, decide_eq_true_eq] at h
    exact ⟨idleB_ok h.1, h.2⟩
  | free id k o =>
    simp only [preB, Bool.and_eq_true, List.contains_iff_mem] at h
    exact ⟨idleB_ok h.1, h.2⟩
  | act id =>
    exact Option.isSome_iff_exists.mp h
  | fetched id l =>
    simp only [preB] at h
    split at h
    · rename_i t hf
      split at h
      · rename_i k n hst
        simp only [Bool.and_eq_true, decide_eq_true_eq, List.all_eq_true, Bool.not_eq_true'] at h
        refine ⟨t, k, n, hf, hst, h.1.1, h.1.2, fun o ho hm => ?_⟩
        have := h.2 o ho
        rw [← List.contains_iff_mem, this] at hm
        cases hm
      · cases h
    · cases h
  | delete id => exact idleB_ok h
  | direct k o => exact List.contains_iff_mem.1 h
  | resize n s => simpa [preB, Pre] using h

def runAll (cfg : Cfg) : W → List Ev → Option (W × List Out)
  | w, [] => some (w, [])
  | w, e :: es =>
    if preB cfg w e then
      (step cfg w e).bind fun (w', o) => (runAll cfg w' es).map fun (z, os) => (z, o :: os)
    else none

theorem runAll_reach : ∀ (es : List Ev) (x y : W) (os : List Out), Reach cfg x → runAll cfg x es = some (y, os) → Reach cfg y
  | [], x, y, os, h, e => by simp only [runAll, Option.some.injEq, Prod.mk.injEq] at e; rw [← e.1]; exact h
  | ev :: es, x, y, os, h, e => by
    unfold runAll at e
    split at e
    · rename_i hp
      rw [Option.bind_eq_some_iff] at e
      obtain ⟨⟨w', o⟩, h1, h2⟩ := e
      rw [Option.map_eq_some_iff] at h2
      obtain ⟨⟨z, os'⟩, h3, h4⟩ := h2
      cases h4
      exact runAll_reach es w' _ _ (.step h (preB_ok hp) h1) h3
    · cases e

/-- A small configuration: two classes of 64 and 4096 bytes; caches start with 8 KiB of a pool of 16 KiB. -/
def demo : Cfg := ⟨3, fun k => [0, 64, 4096].getD k 0, fun k => [0, 4, 2].getD k 0, 8192, 16384, 16384, 8192⟩

theorem demo_ok : demo.OK ∧ demo.kMin < 2 ^ 63 := ⟨⟨by decide, by decide, by decide⟩, by decide⟩

/-- Two threads; the first takes the pool, allocates, frees three large objects: the list is too long, then the cache is
too large and scavenges and raises its limit. -/
def story : List Ev :=
  [.create 100, .malloc 100 2, .fetched 100 [50], .malloc 100 2, .fetched 100 [51, 52], .malloc 100 2,
   .malloc 100 1, .fetched 100 [7], .free 100 1 7,
   .free 100 2 50, .free 100 2 51, .act 100, .act 100, .act 100, .act 100, .act 100, .act 100, .act 100,
   .create 200, .malloc 200 1, .fetched 200 [9]]

example : (runAll demo (W.init demo) story).map (·.2) = some
    [.created, .tau, .allocated 2 (some 50), .tau, .allocated 2 (some 51), .allocated 2 (some 52),
     .tau, .allocated 1 (some 7), .freed,
     .freed, .tau, .tau, .tau, .tau, .tau, .tau, .tau, .freed,
     .created, .tau, .allocated 1 (some 9)] := by decide +kernel

theorem mid_some : (runAll demo (W.init demo) story).isSome = true := by decide +kernel
def mid : W := ((runAll demo (W.init demo) story).get mid_some).1
def outs : List Out := ((runAll demo (W.init demo) story).get mid_some).2

theorem mid_reach : Reach demo mid := by
  have h := (Option.some_get mid_some).symm
  exact runAll_reach story (W.init demo) mid outs .init h

/-- Two caches; the first had raised its limit to all of the pool, so that the second took its part back. -/
example : mid.heaps.map (fun t => (t.id, t.size, t.max)) = [(200, 0, 8192), (100, 8256, 8192)] ∧ mid.unclaimed = 0 ∧
    mid.objects demo = [(1, 9), (2, 52), (1, 7), (2, 51), (2, 50)] ∧ mid.stats.1 = 8256 ∧ mid.stats.2 2 = 2 := by decide +kernel

example : mid.stats.1 = ((mid.cached demo).map fun p => demo.size p.1).sum :=
  (stats_exact demo demo_ok.1 demo_ok.2 mid mid_reach (by decide +kernel)).1

example : mid.unclaimed + ((mid.heaps.map (·.max)).sum : Nat) = (mid.overall : Int) :=
  limits_conserved demo demo_ok.1 demo_ok.2 mid mid_reach

/-- The hypotheses of `free_malloc` and `conserved`. -/
example : (step demo mid (.free 200 1 9)).map (·.2) = some .freed ∧ preB demo mid (.free 200 1 9) = true ∧
    ((step demo mid (.free 200 1 9)).bind fun x => (step demo x.1 (.malloc 200 1)).map (·.2)) = some (.allocated 1 (some 9)) := by
  decide +kernel

/-- From there: a third cache overdraws the pool; the first frees its last large object and scavenges; it is
given up; the limit changes. -/
def story2 : List Ev :=
  [.create 300, .free 100 2 52] ++ List.replicate 9 (.act 100) ++ [.delete 100] ++ List.replicate 6 (.act 100) ++
  [.resize 8192 (fun _ => 4096)]

def story2Out : Option (List Out) := (runAll demo mid story2).map fun x => x.2.filter (· ≠ .tau)
def story2End : Option (List (Nat × Nat × Nat) × Int × List (Nat × Nat)) :=
  (runAll demo mid story2).map fun x => (x.1.heaps.map (fun t => (t.id, t.size, t.max)), x.1.unclaimed, x.1.objects demo)

example : story2Out = some [.created, .toBacking 1 [7], .toBacking 2 [52], .freed, .toBacking 2 [51, 50], .deleted, .resized] ∧
    story2End = some ([(300, 0, 4096), (200, 0, 4096)], 0, [(1, 9)]) := by decide +kernel

end Verif.ThreadCache
