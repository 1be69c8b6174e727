import Verif.SizeMap.Model
/-!
Specification vocabulary for the size-class map: what the shipped configurations are, what a
caller may pass, and what the *right* answer is.  Nothing here refers to `class_array_`.
-/
namespace Verif.SizeMap

/-- `(kPageShift, kNumBaseClasses, kHasExpandedClasses, kMaxSize)` of the four page-size builds,
common.h:121-163. -/
def baseConfigs : List (Nat × Nat × Bool × Nat) :=
  [(12, 46, false, 8192), (13, 86, true, 262144), (15, 78, true, 262144), (18, 89, true, 262144)]

/-- The build configurations that exist. `(kNumaPartitions, kSecurityPartitions)`:
common.h:165-177 (2 NUMA partitions only with `TCMALLOC_INTERNAL_NUMA_AWARE`, two security
partitions otherwise or none); `kBitmapSize` is 128 or 192, span.h:278-281. -/
structure Cfg.Shipped (cfg : Cfg) : Prop where
  base : (cfg.pageShift, cfg.numBase, cfg.hasExpanded, cfg.maxSize) ∈ baseConfigs
  parts : (cfg.numaParts, cfg.secParts) ∈ [(1, 1), (1, 2), (2, 1)]
  bitmap : cfg.bitmapSize ∈ [128, 192]

/-- What a caller can ask for: a power-of-two alignment, an existing partition; cold memory is
only reachable from `operator new` (`TC_ASSERT` at sizemap.h:232). -/
structure Policy.Valid (cfg : Cfg) (p : Policy) : Prop where
  pow2 : ∃ k, p.align = 2 ^ k
  sec : p.secPart < cfg.secParts
  numa : p.numaPart < cfg.numaParts

/-- `e` is the tightest class of the table `t` that can serve a request for `size` bytes aligned
to `align`: big enough, block size a multiple of the alignment, and no smaller class is both. -/
def BestClass (t : List Info) (size align : Nat) (e : Info) : Prop :=
  e ∈ t.tail ∧ size ≤ e.size ∧ align ∣ e.size ∧
    ∀ e' ∈ t.tail, size ≤ e'.size → align ∣ e'.size → e.size ≤ e'.size

/-- First class number of the hot size classes used for a request of the given kind:
security partition 1 has its own classes (when heap partitioning is on), and in "light" mode
every `operator new` goes there too. -/
def hotStart (cfg : Cfg) (isNew : Bool) (secPart : Nat) : Nat :=
  if decide (cfg.secParts > 1) && cfg.partActive &&
      (decide (secPart = 1) || (isNew && !cfg.modeFull)) then cfg.numBase else 0

/-- First class number of the class group that must serve a request. -/
def groupStart (cfg : Cfg) (p : Policy) (size : Nat) : Nat :=
  if cfg.hasExpanded && p.isCold then
    if decide (p.secPart = 1) && cfg.modeFull then hotStart cfg true 1
    else if size = 0 then hotStart cfg true 0
    else cfg.expandedStart
  else hotStart cfg p.isNew p.secPart + p.numaPart * cfg.numBase

end Verif.SizeMap
