/-
Model of the size-class map.

C++ sources: /repo/tcmalloc/sizemap.h, /repo/tcmalloc/sizemap.cc, /repo/tcmalloc/common.h,
/repo/tcmalloc/internal/size_class_info.h, /repo/tcmalloc/span.h (IsValidSizeClass),
/repo/tcmalloc/huge_page_aware_allocator.h (IsValidSizeClass).
-/
namespace Verif.SizeMap

/-- Build and start-up configuration.
common.h:121-163 (`kPageShift`, `kNumBaseClasses`, `kHasExpandedClasses`, `kMaxSize`),
common.h:171-177 (`kNumaPartitions`, `kSecurityPartitions`), span.h:278-281 and 323
(`kBitmapSize`, which depends on `TCMALLOC_INTERNAL_LEGACY_LOCKING`), sizemap.cc:270
(`multiple_non_numa_partitions()`), sizemap.cc:273,328 (`heap_partitioning_mode()==kFull`). -/
structure Cfg where
  pageShift : Nat
  numBase : Nat
  hasExpanded : Bool
  maxSize : Nat
  numaParts : Nat
  secParts : Nat
  bitmapSize : Nat
  partActive : Bool
  modeFull : Bool
  deriving Repr, DecidableEq

namespace Cfg
variable (cfg : Cfg)
/-- `kPageSize`, common.h:210. -/
def pageSize : Nat := 2 ^ cfg.pageShift
/-- `kNormalPartitions`, common.h:179-180. -/
def normalParts : Nat := cfg.numaParts * cfg.secParts
/-- `kExpandedClassesStart`, common.h:186-187. -/
def expandedStart : Nat := cfg.numBase * cfg.normalParts
/-- `kNumClasses`, common.h:188-189. -/
def numClasses : Nat := cfg.expandedStart + (if cfg.hasExpanded then cfg.numBase else 0)
/-- `kHotRegisters` = `kColdRegisterStride`, sizemap.h:111-112. -/
def hotRegisters : Nat := 2 * cfg.secParts
/-- `kColdRegisters`, sizemap.h:113-114. -/
def coldRegisters : Nat := (if cfg.hasExpanded then 1 else 0) * cfg.secParts
/-- `kClassArraySize`, sizemap.h:85-86. -/
def classArraySize : Nat := ((cfg.maxSize + 127 + (120 <<< 7)) >>> 7) + 1
/-- `kClassArraySizePartitions`, sizemap.h:115-116. -/
def classArrayTotal : Nat := cfg.classArraySize * (cfg.hotRegisters + cfg.coldRegisters)
end Cfg

/-- `SizeMap::kLargeSize`, sizemap.h:59. -/
def kLargeSize : Nat := 1024
/-- `SizeMap::kLargeSizeAlignment`, sizemap.h:60. -/
def kLargeSizeAlignment : Nat := 128
/-- `kAlignment`, common.h:213. -/
def kAlignment : Nat := 8
/-- `kMaxObjectsToMove`, common.h:208. -/
def kMaxObjectsToMove : Nat := 128
/-- `kHugePageSize` = 1 << 21 on x86 and aarch64, huge_pages.h / internal/config.h. -/
def kHugePageShift : Nat := 21

/-- `SizeClassInfo`, size_class_info.h:31-47. -/
structure Info where
  size : Nat
  bytes : Nat
  numToMove : Nat
  deriving Repr, DecidableEq

/-- `BytesToLengthFloor`, pages.h:213-215. -/
def bytesToLengthFloor (cfg : Cfg) (b : Nat) : Nat := b >>> cfg.pageShift
/-- `BytesToLengthCeil`, pages.h:197-200. -/
def bytesToLengthCeil (cfg : Cfg) (b : Nat) : Nat :=
  (b >>> cfg.pageShift) + (if b % cfg.pageSize = 0 then 0 else 1)
/-- `Length::in_bytes`, pages.h. -/
def inBytes (cfg : Cfg) (pages : Nat) : Nat := pages <<< cfg.pageShift

/-- `Span::UseBitmapForSize`, span.h:734-741. -/
def useBitmapForSize (cfg : Cfg) (size : Nat) : Bool :=
  decide (size ≥ cfg.pageSize / cfg.bitmapSize)

/-- `Span::IsValidSizeClass`, span.h:724-732 (`kLargeSpanLength = 63`, span.h:238-239). -/
def spanIsValidSizeClass (cfg : Cfg) (size pages : Nat) : Bool :=
  if pages > 63 then false
  else if useBitmapForSize cfg size then decide (inBytes cfg pages / size ≤ cfg.bitmapSize)
  else decide (pages = 1)

/-- `HugePageAwareAllocator::IsValidSizeClass`, huge_page_aware_allocator.h:1288-1298
(`kFewObjectsAllocMaxLimit = 16`, central_freelist.h:132;
`kSmallAllocPages = kPagesPerHugePage / 2`). -/
def hpaaIsValidSizeClass (cfg : Cfg) (size pages : Nat) : Bool :=
  !(decide (inBytes cfg pages / size > 16) &&
    decide (pages > 2 ^ (kHugePageShift - cfg.pageShift) / 2))

/-- `SizeMap::IsValidSizeClass`, sizemap.cc:99-151. -/
def isValidSizeClass (cfg : Cfg) (size pages numToMove : Nat) : Bool :=
  if size = 0 then false
  else if size > cfg.maxSize then false
  else if size % (if size > kLargeSize then kLargeSizeAlignment else kAlignment) ≠ 0 then false
  else if pages = 0 then false
  else if pages > 32 then false
  else if inBytes cfg pages / size < 1 then false
  else if !spanIsValidSizeClass cfg size pages then false
  else if !hpaaIsValidSizeClass cfg size pages then false
  else if numToMove < 2 then false
  else if numToMove > kMaxObjectsToMove then false
  else true

/-- The body of the loop of `ValidSizeClasses`, sizemap.cc:207-224: `prev` is
`size_classes[c-1]`, the list is the remaining classes. -/
def validLoop (cfg : Cfg) : Info → List Info → Bool
  | _, [] => true
  | prev, e :: rest =>
    let pages := bytesToLengthFloor cfg e.bytes
    if inBytes cfg pages ≠ e.bytes then false
    else if e.size ≤ prev.size then false
    else if !isValidSizeClass cfg e.size pages e.numToMove then false
    else validLoop cfg e rest

/-- `SizeMap::ValidSizeClasses`, sizemap.cc:193-235.  The clamp of `num_classes` to
`kNumBaseClasses` (198-200) is the `take`. -/
def validSizeClasses (cfg : Cfg) (t : List Info) : Bool :=
  match (if cfg.hasExpanded && decide (t.length > cfg.numBase) then t.take cfg.numBase else t) with
  | [] => false
  | e0 :: rest =>
    if e0.size ≠ 0 ∨ e0.bytes ≠ 0 ∨ e0.numToMove ≠ 0 then false
    else if !validLoop cfg e0 rest then false
    else decide (((e0 :: rest).getLast (by simp)).size = cfg.maxSize)

/-- The mapping arrays of `class SizeMap`, sizemap.h:125-159. -/
structure Maps where
  classToSize : List Nat
  classToPages : List Nat
  numToMove : List Nat
  classArray : List Nat
  deriving Repr

/-- Ways initialisation can go wrong.  `invalid` is the `return false` of sizemap.cc:244-246;
`tooLong` is the `static_assert` of size_classes.cc:508 (a table with more than
`kNumBaseClasses` entries does not compile); `outOfBounds` is an array access outside
`class_array_` or a failed `TC_CHECK` in `ClassIndex`. -/
inductive InitErr | invalid | tooLong | outOfBounds
  deriving Repr, DecidableEq

/-- `SizeMap::SetSizeClasses`, sizemap.cc:153-189: first register, zero filled
(163-176), copied into every upper register (179-186). -/
def setRegister (cfg : Cfg) (xs : List Nat) : List Nat :=
  (List.replicate (cfg.numClasses / cfg.numBase)
    (xs ++ List.replicate (cfg.numBase - xs.length) 0)).flatten

/-- `SizeMap::ClassIndexMaybe`, sizemap.h:137-147. -/
def classIndexMaybe (cfg : Cfg) (s : Nat) : Option Nat :=
  if s ≤ kLargeSize then some ((s + 7) >>> 3)
  else if s ≤ cfg.maxSize then some ((s + 127 + 120 * 128) >>> 7)
  else none

/-- Checked array store. -/
def wr (a : List Nat) (i v : Nat) : Option (List Nat) :=
  if i < a.length then some (a.set i v) else none

/-- Stores `v` at `idx + o` for every register offset `o` (the one, two or three stores in the
inner loops at sizemap.cc:254, 281-287, 320). -/
def wrAll (a : List Nat) (idx v : Nat) : List Nat → Option (List Nat)
  | [] => some a
  | o :: os => do
    let a' ← wr a (idx + o) v
    wrAll a' idx v os

/-- The inner loop `for (s = next_size; s <= max; s += kAlignment)`,
sizemap.cc:252-255, 278-288, 318-321. -/
def fillClass (cfg : Cfg) (offs : List Nat) (c s max : Nat) (a : List Nat) : Option (List Nat) :=
  if s ≤ max then do
    let idx ← classIndexMaybe cfg s
    let a' ← wrAll a idx c offs
    fillClass cfg offs c (s + kAlignment) max a'
  else some a
termination_by max + 1 - s
decreasing_by simp only [kAlignment]; omega

/-- The outer loop over classes `c .. stop-1` with the early `break`, sizemap.cc:249-260,
275-293 and 308-326 (`skipZero` = the `continue` of 310-313, cold loop only). -/
def fillLoop (cfg : Cfg) (sizes offs : List Nat) (skipZero : Bool) (stop c next : Nat)
    (a : List Nat) : Option (List Nat) :=
  if c < stop then do
    let max ← sizes[c]?
    if skipZero && decide (max = 0) then
      fillLoop cfg sizes offs skipZero stop (c + 1) (max + kAlignment) a
    else
      let a' ← fillClass cfg offs c next max a
      if max + kAlignment > cfg.maxSize then some a'
      else fillLoop cfg sizes offs skipZero stop (c + 1) (max + kAlignment) a'
  else some a
termination_by stop - c

/-- `std::copy` of one register of `class_array_` onto another. -/
def copyReg (k src dst : Nat) (a : List Nat) : Option (List Nat) :=
  if src + k ≤ a.length ∧ dst + k ≤ a.length then
    some (a.take dst ++ (a.drop src).take k ++ a.drop (dst + k))
  else none

/-- sizemap.cc:265-268: copy register 0 to hot registers `i .. i+n-1`. -/
def copyHot (k : Nat) : Nat → Nat → List Nat → Option (List Nat)
  | _, 0, a => some a
  | i, n + 1, a => do
    let a' ← copyReg k 0 (k * i) a
    copyHot k (i + 1) n a'

/-- The filling of `class_array_` in `SizeMap::Init`, sizemap.cc:248-341.  `leftover` is the value
`next_size` happens to have when the cold loop starts (the code does not reset it,
sizemap.cc:296-308); theorems hold for every value. -/
def initArray (cfg : Cfg) (sizes : List Nat) (leftover : Nat) : Option (List Nat) := do
  let k := cfg.classArraySize
  let a := List.replicate cfg.classArrayTotal 0
  let a ← fillLoop cfg sizes [0] false cfg.numClasses 1 0 a
  let a ← copyHot k 1 (cfg.hotRegisters - 1) a
  let a ←
    (if decide (cfg.secParts > 1) && cfg.partActive then
      fillLoop cfg sizes
        (if cfg.modeFull then [k * (cfg.secParts + 1), k] else [k * (cfg.secParts + 1), k, 0])
        false cfg.expandedStart (cfg.numBase + 1) 0 a
    else some a)
  if cfg.hasExpanded then do
    let a ← copyReg k 0 (k * cfg.hotRegisters) a
    let a ← fillLoop cfg sizes [k * cfg.hotRegisters] true cfg.numClasses cfg.expandedStart
      leftover a
    if cfg.secParts > 1 then
      if cfg.modeFull then copyReg k k (k * (2 * cfg.secParts + 1)) a
      else copyReg k (k * (2 * cfg.secParts)) (k * (2 * cfg.secParts + 1)) a
    else some a
  else some a

/-- `SizeMap::Init`, sizemap.cc:238-344.  `leftover` is the value `next_size` happens to have
when the cold loop starts. -/
def init (cfg : Cfg) (t : List Info) (leftover : Nat) : Except InitErr Maps :=
  if t.length > cfg.numBase then .error .tooLong
  else if !validSizeClasses cfg t then .error .invalid
  else
    let sizes := setRegister cfg (t.map (·.size))
    let pages := setRegister cfg (t.map fun e => bytesToLengthFloor cfg e.bytes)
    let moves := setRegister cfg (t.map (·.numToMove))
    match initArray cfg sizes leftover with
    | none => .error .outOfBounds
    | some a => .ok ⟨sizes, pages, moves, a⟩

/-- The parts of a policy `GetSizeClass` looks at, tcmalloc_policy.h:300-525.
`constAlign` says that the alignment is a compile-time constant (sizemap.h:255). -/
structure Policy where
  align : Nat
  isCold : Bool
  isNew : Bool
  secPart : Nat
  numaPart : Nat
  constAlign : Bool
  deriving Repr, DecidableEq

/-- Result of `GetSizeClass`: `large` = `{false}`, `small c` = `{true, c}`. -/
inductive Res | large | small (c : Nat)
  deriving Repr, DecidableEq

/-- The do-while loop of sizemap.h:267-272 together with the test in front of it.  Running off
the end of `class_to_size_` is undefined behaviour: `none`. -/
def alignLoop (sizes : List Nat) (align c : Nat) : Option Nat :=
  match h : sizes[c]? with
  | none => none
  | some sz => if sz % align = 0 then some c else alignLoop sizes align (c + 1)
termination_by sizes.length - c
decreasing_by
  have := (List.getElem?_eq_some_iff.1 h).1
  omega

/-- The `class_array_` lookup in `GetSizeClass`, sizemap.h:227-248. -/
def lookupClass (cfg : Cfg) (m : Maps) (p : Policy) (idx : Nat) : Option Nat :=
  if cfg.hasExpanded && p.isCold then
    m.classArray[idx + (p.secPart + cfg.hotRegisters) * cfg.classArraySize]?
  else
    (m.classArray[idx + (p.secPart + (if p.isNew then 0 else cfg.secParts)) *
      cfg.classArraySize]?).map (· + p.numaPart * cfg.numBase)

/-- `SizeMap::GetSizeClass`, sizemap.h:212-274.  `none` is undefined behaviour (an access out
of bounds). -/
def getSizeClass (cfg : Cfg) (m : Maps) (p : Policy) (size : Nat) : Option Res :=
  if p.align > cfg.pageSize then some .large
  else
    match classIndexMaybe cfg size with
    | none => some .large
    | some idx =>
      match lookupClass cfg m p idx with
      | none => none
      | some c =>
        if p.constAlign && decide (p.align ≤ kAlignment) then some (.small c)
        else (alignLoop m.classToSize p.align c).map .small

end Verif.SizeMap
