import Verif.SizeMap.Model
/-
Model of pointer tags: /repo/tcmalloc/internal/memory_tag.h, /repo/tcmalloc/common.h:252-288,
the pointer tests of `do_free`/`do_free_with_size` in /repo/tcmalloc/tcmalloc.cc:763-780,
/repo/tcmalloc/central_freelist.cc:52-60.

Non-sanitizer builds with 48 address bits (x86-64, aarch64, riscv: internal/config.h:142-154), so
`kTagShift = min(48 - 4, 42) = 42`.
-/
namespace Verif.MemoryTag
open Verif.SizeMap (Cfg)

/-- `enum class MemoryTag`, memory_tag.h:28-42 (`kNormal` is `normalP0`). -/
inductive Tag | sampled | sampledP1 | normalP0 | normalP1 | cold | metadata
  deriving Repr, DecidableEq

/-- The enumerators' values, memory_tag.h:30-41. -/
def Tag.val : Tag → Nat
  | .sampled => 0x0
  | .sampledP1 => 0x1
  | .normalP0 => 0x4
  | .normalP1 => 0x6
  | .cold => 0x2
  | .metadata => 0x3

/-- `kAddressBits`, internal/config.h:142. -/
def kAddressBits : Nat := 48
/-- `kTagShift`, memory_tag.h:44. -/
def kTagShift : Nat := min (kAddressBits - 4) 42
/-- `kTagMask`, memory_tag.h:45-46. -/
def kTagMask : Nat := 0x7 <<< kTagShift

/-- `GetMemoryTag`, memory_tag.h:48-51; the result is the raw 3-bit value. -/
def getMemoryTag (ptr : Nat) : Nat := (ptr &&& kTagMask) >>> kTagShift

/-- `IsNormalMemory`, memory_tag.h:53-66. -/
def isNormalMemory (ptr : Nat) : Bool := getMemoryTag ptr &&& Tag.normalP0.val != 0
/-- `IsSampledMemory`, memory_tag.h:68-76 (`~kSampledP1` on 64 bits). -/
def isSampledMemory (ptr : Nat) : Bool :=
  getMemoryTag ptr &&& ((2 ^ 64 - 1) ^^^ Tag.sampledP1.val) == 0

/-- `MultiNormalTag`, common.h:252-262; `none` is the `__builtin_unreachable`. -/
def multiNormalTag : Nat → Option Tag
  | 0 => some .normalP0
  | 1 => some .normalP1
  | _ => none

/-- `PartitionFromPointer`, common.h:264-275. -/
def partitionFromPointer (cfg : Cfg) (ptr : Nat) : Nat :=
  if cfg.normalParts = 1 then 0
  else if getMemoryTag ptr = Tag.normalP1.val then 1 else 0

/-- `PartitionFromPointerFast`, common.h:279-288. -/
def partitionFromPointerFast (cfg : Cfg) (ptr : Nat) : Nat :=
  if cfg.normalParts = 1 then 0
  else if getMemoryTag ptr &&& 2 ≠ 0 then 1 else 0

/-- `MemoryTagFromSizeClass`, central_freelist.cc:52-60; `activeParts` is
`tc_globals.active_partitions()`. -/
def tagFromSizeClass (cfg : Cfg) (activeParts c : Nat) : Option Tag :=
  if cfg.hasExpanded && decide (c ≥ cfg.expandedStart) then some .cold
  else if activeParts = 1 then some .normalP0
  else multiNormalTag (c / cfg.numBase)

/-- `kBadDeallocationHighMask`, tcmalloc.cc:763-764. -/
def kBadHighMask : Nat := 2 ^ 64 - 2 ^ kAddressBits
/-- `kBadAlignmentMask`, tcmalloc.cc:765-766. -/
def kBadAlignmentMask : Nat := 8 - 1
/-- `kNormalMask`, tcmalloc.cc:769-770. -/
def kNormalMask : Nat := Tag.normalP0.val <<< kTagShift
/-- `kColdMask`, tcmalloc.cc:771-772. -/
def kColdMask : Nat := Tag.cold.val <<< kTagShift
/-- `kNormalOrBadDeallocationMask`, tcmalloc.cc:776-777. -/
def kNormalOrBadMask : Nat := kBadHighMask ||| kNormalMask ||| kBadAlignmentMask
/-- `kTagOrBadDeallocationMask`, tcmalloc.cc:779-780. -/
def kTagOrBadMask : Nat := kBadHighMask ||| kTagMask ||| kBadAlignmentMask

/-- How `do_free` (tcmalloc.cc:805-841) and `do_free_with_size` (894-925) sort a pointer: the
one-mask test, and for sized free the cold test. -/
inductive PtrKind | fastNormal | null | cold | irregular
  deriving Repr, DecidableEq

/-- tcmalloc.cc:818-827 and 907-924. -/
def ptrKind (ptr : Nat) : PtrKind :=
  if ptr &&& kNormalOrBadMask ≠ kNormalMask then
    if ptr = 0 then .null
    else if ptr &&& kTagOrBadMask = kColdMask then .cold
    else .irregular
  else .fastNormal

end Verif.MemoryTag
