import Verif.Heap.Story
import Verif.Heap.Stats
import Verif.GlobalStats.Props
/-! The hypotheses of C72 are met in per-CPU mode. -/
namespace Verif.Heap.Story
open Verif.GlobalStats (sample extract inUseByApp)

theorem sizes0 : cfg0.Sizes where
  size := by decide
  unused := fun k hk hu => by
    have hk : k < 3 := hk
    have : k = 0 ∨ k = 1 ∨ k = 2 := by omega
    rcases this with rfl | rfl | rfl
    · decide
    · exact absurd (CpuCache.usedB_ok (by decide +kernel)) hu
    · exact absurd (CpuCache.usedB_ok (by decide +kernel)) hu
  cut := fun k hk => by rcases used0 hk with rfl | rfl <;> decide
  one := fun k hk => by rcases used0 hk with rfl | rfl <;> decide

theorem three_rest : Rest cfg0 2 (after three three_some) where
  th := by decide +kernel
  thr := by decide +kernel
  rem := by decide +kernel
  rs := by decide +kernel
  tier := fun k hk => by
    rcases used0 hk with rfl | rfl
    · exact List.length_eq_zero_iff.1 (by decide +kernel)
    · exact List.length_eq_zero_iff.1 (by decide +kernel)
  calls := fun k r => by
    have : (after three three_some).led.all (fun x => !x.1.busy) = true := by decide +kernel
    rw [List.all_eq_true] at this
    exact ⟨fun h => absurd (this _ h) (by simp [Owner.busy]), fun h => absurd (this _ h) (by simp [Owner.busy])⟩
  page := fun t ht => by
    have : t = 0 ∨ t = 1 := by omega
    rcases this with rfl | rfl
    · unfold PageHeap.HP.quiet; decide +kernel
    · unfold PageHeap.HP.quiet; decide +kernel

theorem three_tags : ∀ x ∈ (after three three_some).led, x.1.tag cfg0 < 2 := by
  have : (after three three_some).led.all (fun x => decide (x.1.tag cfg0 < 2)) = true := by decide +kernel
  intro x hx
  exact of_decide_eq_true (List.all_eq_true.1 this x hx)

/-- `in_use_exact`: three blocks of 177280 bytes in all, objects in the per-CPU caches, a transfer cache and the spans. -/
example : ∃ s, extract ((after three three_some).reading cfg0 2 sample) false = some s ∧ inUseByApp s = 177280 ∧
    s.perCpu = 17920 ∧ s.transfer = 4480 ∧ s.central = 29696 := by
  refine ⟨_, rfl, (in_use_exact ok0 sizes0 (after_reach three three_some).1 three_rest three_tags sample _ rfl).trans ?_, ?_, ?_, ?_⟩
  · decide +kernel
  · decide +kernel
  · decide +kernel
  · decide +kernel

/-- `in_use_covers`: a thread has popped an object and not yet returned it; it counts as in use. -/
theorem early_rs : (after early early_some).cpu.s.rs.isNone = true := by decide +kernel
theorem early_rem : ∀ c, c < cfg0.cpu.slab.n → ((after early early_some).cpu.s.rem c).isNone = true := by decide +kernel
theorem early_tags : ∀ x ∈ (after early early_some).led, x.1.tag cfg0 < 2 := by
  have : (after early early_some).led.all (fun x => decide (x.1.tag cfg0 < 2)) = true := by decide +kernel
  intro x hx
  exact of_decide_eq_true (List.all_eq_true.1 this x hx)
example : ∃ s, extract ((after early early_some).reading cfg0 2 sample) false = some s ∧
    (after early early_some).liveBytes cfg0 ≤ inUseByApp s :=
  ⟨_, rfl, in_use_covers ok0 sizes0 (after_reach early early_some).1 (Option.isNone_iff_eq_none.1 early_rs)
    (fun c hc => Option.isNone_iff_eq_none.1 (early_rem c hc)) 2 early_tags sample _ rfl⟩
theorem early_bytes : (extract ((after early early_some).reading cfg0 2 sample) false).map inUseByApp = some 177280 ∧
    (after early early_some).liveBytes cfg0 = 168320 := by
  refine ⟨?_, ?_⟩ <;> decide +kernel

/-- `class_count_exact`: of the nine objects of class 1 a user has one. -/
example : GlobalStats.classCount ((after three three_some).reading cfg0 2 sample) ((after three three_some).classRead cfg0 1) 0 = 8 ∧
    (after three three_some).cpuClass cfg0 1 = 2 ∧ ofK 1 (after three three_some).cpu.user = 1 ∧
    ((after three three_some).tier 1).x.sp.length * (cfg0.geo 1).count = 9 := by
  refine ⟨?_, ?_, ?_, ?_⟩ <;> decide +kernel

end Verif.Heap.Story
