import Verif.Process.Props
import Verif.Heap.Story
import Verif.Guarded.Story
/-! The hypotheses of C82 are met: the story of `Verif/Heap/Story.lean` and that of `Verif/Guarded/Story.lean` in one
address space. -/
namespace Verif.Process
open Verif.Span (Mem)
open Verif.HugeAddressMap (Rng Cov)
open Verif.Heap (Heap Cfg Block)
open Verif.Heap.Story

def handed : Move → List Rng
  | .page _ e _ _ => e.sys
  | _ => []

def handedAll : List Move → List Rng → List Rng
  | [], G => G
  | m :: ms, G => handedAll ms (handed m ++ G)

theorem handed_ev (h : Heap) (m : Move) : (m.ev h).handed = handed m := by
  cases m <;> try rfl
  next t e who zap => cases zap <;> rfl

theorem runAll_history {cfg : Cfg} {limit : Nat} (hc : cfg.OK limit) {w : Mem} : ∀ (ms : List Move) (x y : Heap) (os : List Heap.Out)
    (G : List Rng), History cfg limit w G x → (∀ t, 8 ≤ t → x.ob t = []) → runAll cfg x ms = some (y, os) →
    History cfg limit w (handedAll ms G) y
  | [], x, y, os, G, h, ho, e => by simp only [runAll, Option.some.injEq, Prod.mk.injEq] at e; rw [← e.1]; exact h
  | m :: ms, x, y, os, G, h, ho, e => by
    unfold runAll at e
    split at e
    · rename_i hp
      obtain ⟨⟨x', o⟩, h1, h2⟩ := Option.bind_eq_some_iff.1 e
      obtain ⟨⟨z, os'⟩, h3, h4⟩ := Option.map_eq_some_iff.1 h2
      simp only [Prod.mk.injEq] at h4
      rw [← h4.1]
      have h5 := h.step _ (preB_ok (h.reach.inv hc) hc ho hp) h1
      rw [handed_ev] at h5
      exact runAll_history hc ms x' z os' _ h5 (Heap.Story.step_ob ho hp h1) h3
    · cases e

theorem start_history : History cfg0 35840 (fun a => a % 7) [] start :=
  History.init (m := mem0) (b := 0) (threads := 2) (fun _ => tcs) (fun _ => false) (fun _ => reg0) (fun a => a % 7) fits0
    (Option.some_get init_some).symm (by
      intro _ c hc
      simp only [tcs, List.mem_cons, List.not_mem_nil, or_false] at hc
      rcases hc with rfl | rfl
      · exact ⟨4, 8, _, rfl, by decide⟩
      · exact ⟨2, 2, _, rfl, by decide⟩)

theorem after_history (ms : List Move) (hs : (runAll cfg0 start ms).isSome = true) :
    History cfg0 35840 (fun a => a % 7) (handedAll ms []) (after ms hs) :=
  runAll_history ok0 ms start _ _ [] start_history (fun _ _ => rfl) (Option.some_get hs).symm

set_option maxRecDepth 20000

/-- `foreign_untouched`, `blocks_given`, `released_given`: sixteen hugepages of 64 KiB are handed out, blocks in both
ranges are written to, and hugepages are given back; the word just before the first range is as it was. -/
theorem three_handed : handedAll three [] = [⟨40, 8⟩, ⟨10, 8⟩] := by decide +kernel
theorem freed_handed : handedAll freed [] = [⟨40, 8⟩, ⟨10, 8⟩] := by decide +kernel

example : (after three three_some).mem 327679 = 327679 % 7 := by
  refine foreign_untouched ok0 (after_history three three_some) (Or.inl ?_)
  rw [three_handed]
  rintro ⟨r, hr, h1, h2⟩
  simp only [List.mem_cons, List.not_mem_nil, or_false] at hr
  rcases hr with rfl | rfl <;> revert h1 <;> decide

/-- A word in the memory handed out has been changed: a user has written. -/
example : Given cfg0 (handedAll three []) 670000 ∧ (after three three_some).mem 335000 = 6 ∧ 335000 % 7 ≠ 6 := by
  refine ⟨?_, by decide +kernel, by decide⟩
  rw [three_handed]
  exact ⟨⟨10, 8⟩, by decide, by decide, by decide⟩

example : Given cfg0 (handedAll three []) 2800000 :=
  blocks_given ok0 (after_history three three_some) (b := ⟨2794240, 8960⟩) (by decide +kernel) ⟨by decide, by decide⟩

/-- The guarded page allocator maps seven pages of 4 KiB below. -/
theorem apart (y : Nat) (hy : Region Guarded.cfg y) : ¬ Given cfg0 (handedAll three []) y := by
  rw [three_handed]
  rintro ⟨r, hr, h1, h2⟩
  have h3 : y < 0x17000 := hy.2
  simp only [List.mem_cons, List.not_mem_nil, or_false] at hr
  rcases hr with rfl | rfl
  · have : 40 * 65536 ≤ y := h1
    omega
  · have : 10 * 65536 ≤ y := h1
    omega

theorem guard_run {cfg : Cfg} {limit : Nat} {c : Guarded.Cfg} {G : List Rng} {h : Heap} {s s' : Guarded.S} {L L' : List Guarded.Obj}
    (hr : Reach cfg limit c G ⟨h, s, L⟩) (hR : Guarded.Run c s L s' L') : Reach cfg limit c G ⟨h, s', L'⟩ := by
  induction hR with
  | refl => exact hr
  | step _ hp hs ih => exact .guard _ ih hp hs

def both : Proc := ⟨after three three_some, Guarded.mid.1, Guarded.mid.2.1⟩

theorem both_reach : Reach cfg0 35840 Guarded.cfg (handedAll three []) both :=
  guard_run (.start _ (after_history three three_some) apart) Guarded.mid_run

/-- `blocks_disjoint`: five blocks of all kinds. -/
example : both.live cfg0 = [⟨2794240, 8960⟩, ⟨668800, 4480⟩, ⟨2621440, 163840⟩, ⟨0x13000, 100⟩, ⟨0x15fc0, 24⟩] := by decide +kernel
example : (both.live cfg0).Pairwise Block.Apart := (blocks_disjoint ok0 Guarded.cfg_ok both_reach).1
/-- `free_routed`. -/
example : Guarded.cfg.mine 0x15fc0 = true ∧ Guarded.cfg.mine 2794240 = false :=
  ⟨(free_routed ok0 Guarded.cfg_ok both_reach).1 Guarded.obj2 Guarded.obj2_mem,
   (free_routed ok0 Guarded.cfg_ok both_reach).2 ⟨2794240, 8960⟩ (by decide +kernel) 2794240 ⟨by decide, by decide⟩⟩

/-- `heap_spares_guarded`: twenty pages are freed, while guarded objects are in use. -/
example : Heap.Pre cfg0 both.heap ((Move.page 1 (.delete ⟨320, 20, 1, true⟩ false 0 (fun _ => true)) (.big 1) none).ev both.heap) :=
  after_pre three three_some (by decide +kernel)

/-- `guarded_spares_others`: the next allocation writes the bytes behind its object, in its own region. -/
example : Guarded.Pre Guarded.cfg both.g both.objs (.dealloc 0x15fc0) := ⟨Guarded.obj2, Guarded.obj2_mem, rfl⟩
example : both.g.mem 0x15fd8 = 0xcd ∧ both.g.mem 0x17000 = 0 := by decide +kernel

/-- `released_given`: hugepages and free pages go back to the kernel. -/
example : ((Heap.step cfg0 (after freed freed_some) (sub.ev (after freed freed_some))).any fun (_, o) =>
    match o with | .page 1 r => decide (r.calls = [⟨336, 4, true⟩, ⟨343, 1, true⟩]) | _ => false) = true ∧
    Given cfg0 (handedAll freed []) (336 * 8192) := by
  refine ⟨by decide +kernel, ?_⟩
  rw [freed_handed]
  exact ⟨⟨40, 8⟩, by decide, by decide, by decide⟩

end Verif.Process
