import Verif.Frontend.Checks
import Verif.Heap.BridgeStory
/-! C86: the range of sizes in a report can leave out the size that was asked for. -/
namespace Verif.Frontend
open Verif.SizeMap
open Verif.Heap.Story (scfg scfg_shipped table sizes env1 env1_ok env1_sizes maps1_some)

/-- `memalign(64, 100)`. -/
def memalign64 : Pol := { mallocPol scfg 0 with kind := .memalign 64 }

theorem memalign64_valid : memalign64.sm.Valid scfg := ⟨⟨6, rfl⟩, by decide, by decide⟩

/-- **C86, false of the code.**  With a shipped table, `memalign(64, 100)` gets a block of 128 bytes.  The report of a wrong sized
free of it gives the range of sizes from 113 to 128 bytes: the 100 bytes that were asked for are not in it. -/
theorem report_range_excludes_request :
    ∃ c, getSizeClass env1.cfg env1.maps memalign64.sm 100 = some (.small c) ∧ classToSizeRange env1.maps c = some (113, 128) := by
  obtain ⟨c, e, h1, h2, h3, -, -, h5, h6, -⟩ := class_is_tightest scfg scfg_shipped table 0 _ maps1_some.choose_spec _ memalign64_valid 100
    (by decide) (by decide)
  have hsz : e.size = 128 := by
    have : ∀ e ∈ table.tail, 100 ≤ e.size → 64 ∣ e.size → 128 ≤ e.size := by decide +kernel
    have a1 := this e h2.1 h2.2.1 h2.2.2.1
    have hex : ∃ x ∈ table.tail, x.size = 128 := by decide +kernel
    obtain ⟨x, hx, hx2⟩ := hex
    have a2 := h2.2.2.2 x hx (by omega) (by rw [hx2]; decide)
    omega
  have hg : groupStart scfg memalign64.sm 100 = 0 := by decide +kernel
  rw [hg] at h5 h6
  have h3' : sizes[c]? = some e.size := by rw [← env1_sizes]; exact h3
  have h6' : c < 86 := by have : c < 0 + 86 := h6; omega
  have hall : ∀ c, c < 86 → 0 < c → sizes[c]? = some 128 → sizes[c - 1]? = some 112 := by decide +kernel
  have hp := hall c h6' h5 (by rw [h3', hsz])
  refine ⟨c, h1, ?_⟩
  unfold classToSizeRange
  rw [if_neg (by omega), env1_sizes, h3', hsz, hp]
  rfl

end Verif.Frontend
