import Verif.Treatment.Collapse
import Verif.Treatment.Story
/-! Collapsing and backing off on concrete cases. -/
namespace Verif.Treatment
open Verif.Bitmap Verif.RangeTracker Verif.PageTracker Verif.HintedLists Verif.Filler

def pr (id : Nat) (huge : Option Bool) (nSwapped nUnbacked : Nat) (released ok : Bool) (errno cycles : Nat) : Probe :=
  ⟨id, huge, nSwapped, nUnbacked, false, false, Bitmap.empty 8, released, ok, errno, cycles⟩

/-- One that is huge, one with too many swapped pages, one that collapses, one with pages returned meanwhile, one whose
flags cannot be read, one refused after a long time, one that comes too late. -/
def probes : List Probe := [pr 1 (some true) 0 0 false true 0 5, pr 2 (some false) 128 0 false true 0 5,
  pr 3 (some false) 127 63 false true 0 7, pr 4 (some false) 0 0 true true 0 0, pr 5 none 0 0 false true 0 5,
  pr 6 (some false) 0 0 false false 11 50, pr 7 (some false) 0 0 false true 0 5]

example : (tried true false 20 probes).map Probe.id = [3, 4, 6] ∧ (tried true true 20 probes).map Probe.id = [2, 3, 4, 6] ∧
    (tried true false 50 probes).map Probe.id = [3, 4, 6, 7] := by decide +kernel

example : ((treat 8 true false 20 probes).2.map (fun r => (r.obs.backed, r.skipped, r.skippedBackoff, r.asked))) =
    [(true, false, false, false), (false, true, false, false), (true, false, false, true), (false, false, false, false),
     (true, false, false, false), (false, false, false, true), (false, true, true, false)] := by decide +kernel

example : ((treat 8 true false 20 probes).1.attempted, (treat 8 true false 20 probes).1.succeeded,
    errKinds.map (treat 8 true false 20 probes).1.errors, (treat 8 true false 20 probes).1.timeTotal,
    (treat 8 true false 20 probes).1.timeMax) = (3, 1, [0, 0, 0, 1, 0, 1], 57, 50) := by decide +kernel

/-- Slow attempts double the delay: 1, 2, 4; fast ones halve it. -/
def slowEv : Ev := ⟨true, false, [pr 6 (some false) 0 0 false false 11 50]⟩
def fastEv : Ev := ⟨true, false, [pr 6 (some false) 0 0 false true 0 1]⟩
def noEv : Ev := ⟨false, false, [pr 6 (some false) 0 0 false true 0 1]⟩

example : (runs 8 20 10 B.init [slowEv, slowEv, noEv, slowEv, fastEv, fastEv, fastEv, fastEv, fastEv, fastEv]).2 =
    [true, false, false, true, false, false, false, true, false, true] := by decide +kernel

example : (runs 8 20 10 B.init [slowEv, slowEv, noEv, slowEv]).1.delay = 4 ∧
    (runs 8 20 10 B.init [slowEv, slowEv, noEv, slowEv]).1.skips = 1 := by decide +kernel

/-- A treatment has selected hugepage 1; while the kernel collapses it, everything free is to be released. -/
def fC : F := treatBegin fB [] [1]
def gC : Gh := { gB with treat := some ([], [1]) }

theorem fC_reach : Filler.Reach 8 false fC gC :=
  Filler.Reach.treatBegin [] [1] two_reach rfl (by simp) (by simp [gB]) (by decide)

theorem fC_during : During 8 false 1 fC gC := During.start fC_reach rfl (by simp) (by decide +kernel)

example : (releasePages 8 false fC 100 none (fun x => x == 1) (fun _ _ => true)).map (fun r => (r.2.1, r.2.2.map Prod.fst)) =
    some (5, [0]) ∧
    (releasePages 8 false fC 100 none (fun _ => false) (fun _ _ => true)).map (fun r => (r.2.1, r.2.2.map Prod.fst)) =
    some (11, [1, 0]) := by decide +kernel

example : ∃ s' log, Filler.treatEnd 8 false false fC [] ((treat 8 true false 20 [pr 1 (some false) 0 0 false false 11 50]).2.map Rec.obs)
    (fun _ _ => true) = some (s', log) ∧ Filler.Reach 8 false s' { gC with treat := none } := by
  obtain ⟨s', log, h1, h2, -⟩ := treat_ends (N := 8) (mode := false) (en := true) (unf := false) (slow := 20) (by omega) fC_reach
    (L := [pr 1 (some false) 0 0 false false 11 50]) rfl (by intro p hp; rw [List.mem_singleton] at hp; subst hp; exact wf_empty 8)
    false (fun _ _ => true)
  exact ⟨s', log, h1, h2⟩

end Verif.Treatment
