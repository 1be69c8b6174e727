import Verif.SizeMap.Props
/-! The sizes of the shipped tables: what `Cfg.Sizes` of C72 asks of a span with one object. -/
namespace Verif.GlobalStats
open Verif.SizeMap (Info shippedTables)

/-- In every shipped table, an object that is alone in its span takes the whole span (the field `pages` of the tables is in bytes, a multiple of the page size: C05). -/
theorem one_object_no_tail : ∀ x ∈ shippedTables, ∀ e ∈ x.2, 0 < e.size → e.bytes / e.size = 1 →
    e.bytes % e.size = 0 := by decide +kernel

end Verif.GlobalStats
