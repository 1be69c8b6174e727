import Verif.MemoryTag.Model
/-!
Model of the system allocator, /repo/tcmalloc/internal/system_allocator.h: address space reserved from the kernel with
`mmap`, regions carved from the top, and `Release`.

All of `Allocate`, `MmapAligned` and `SetRegionFactory` runs under `spinlock_`: each is one step.  The kernel is the
environment: the answers of `mmap`, `mprotect` and `madvise` are arguments, with what the kernel promises stated in
Spec.lean.  So are the pseudo-random numbers of `RandomMmapHint`, and the answers of region factories installed by the
program.  Not modelled: names and NUMA binding of mappings, `munlock`, `MADV_NOHUGEPAGE`, logging, statistics; sanitizer
builds.  `munmap` of a range just mapped succeeds.  `x & ~(a - 1)` for a power of two `a` is written `x - x % a`.
-/
namespace Verif.SystemAlloc
open Verif.MemoryTag

/-- Constants of the build and of the process. -/
structure Cfg where
  /-- log2 of `GetPageSize()` -/
  pageBits : Nat
  /-- log2 of `kHugePageSize` -/
  hugeBits : Nat
  /-- log2 of `min_mmap_size_`, which is `kMinMmapAlloc` (static_vars.cc:114, common.h:235-241) -/
  mmapBits : Nat
  /-- `kNumPartitions`, lines 194-195 -/
  parts : Nat
  /-- `kSecurityPartitions`, lines 196-197 -/
  secParts : Nat
  /-- `MapFixedNoReplaceFlagAvailable()` -/
  noreplace : Bool
  deriving Repr

def Cfg.page (c : Cfg) : Nat := 2 ^ c.pageBits
def Cfg.huge (c : Cfg) : Nat := 2 ^ c.hugeBits
def Cfg.minMmap (c : Cfg) : Nat := 2 ^ c.mmapBits

/-- `kTagFree`, line 446. -/
def kTagFree : Nat := 2 ^ kTagShift

/-- The array index used for a tag is inside the array, lines 206-207, 225-228, 481-499, 537-558. -/
def Cfg.supports (c : Cfg) : Tag → Bool
  | .normalP1 => decide (2 ≤ c.parts)
  | .sampledP1 => decide (2 ≤ c.secParts)
  | _ => true

/-- `RoundUp`, lines 309-311, in `size_t`, for a power of two. -/
def roundUp (size a : Nat) : Nat := (size + a - 1) % 2 ^ 64 - (size + a - 1) % 2 ^ 64 % a

/-- `MmapRegion`, lines 232-246, and a region of another factory: what is left to allocate is
`[start, start + free)` for the former. -/
structure Region where
  start : Nat
  size : Nat
  free : Nat
  custom : Bool
  deriving Repr, DecidableEq

structure W where
  /-- `next_sampled_addr_`, `next_normal_addr_`, `next_cold_addr_`, `next_metadata_addr_`, lines 205-210 -/
  next : Tag → Nat
  /-- `normal_region_`, `sampled_region_`, `cold_region_`, `metadata_region_`, lines 225-230 -/
  region : Tag → Option Region
  /-- `region_factory_` is not `&mmap_factory_`, line 264 -/
  custom : Bool
  /-- not in the program: the mappings obtained from the kernel and not given back -/
  mapped : List (Nat × Nat)
  /-- not in the program: the ranges returned to callers -/
  given : List (Nat × Nat)

def W.init : W := ⟨fun _ => 0, fun _ => none, false, [], []⟩

/-- The answers of the environment during a call. -/
structure Oracle where
  /-- the pseudo-random numbers with which the loop of lines 827-831 ends -/
  rnd : Nat → Nat
  /-- the answer of each `mmap` of line 577; `none` is `MAP_FAILED` -/
  kern : Nat → Option Nat
  /-- whether `Create` returns a region -/
  create : Bool
  /-- whether the `mprotect` of the first and the second `Alloc` succeeds -/
  prot1 : Bool
  prot2 : Bool
  /-- the answers of regions of another factory -/
  cust1 : Option (Nat × Nat)
  cust2 : Option (Nat × Nat)

/-- `absl::bit_ceil`. -/
def bitCeil (n : Nat) : Nat := if n ≤ 1 then 1 else 2 ^ (Nat.log2 (n - 1) + 1)

/-- `~x` on 64 bits. -/
def not64 (x : Nat) : Nat := 2 ^ 64 - 1 - x

/-- The address of lines 829-830, with the alignment of line 824. -/
def hintAddr (size alignment : Nat) (tag : Tag) (rnd : Nat) : Nat :=
  let alignment := bitCeil (max alignment size)
  ((rnd &&& (2 ^ (kAddressBits - 1) - 1)) &&& not64 (alignment - 1)) &&& not64 kTagMask
    ||| tag.val <<< kTagShift

/-- `RandomMmapHint`, lines 781-872: the loop ends with an address that is not 0. -/
def randomHint (size alignment : Nat) (tag : Tag) (rnd : Nat) : Option Nat :=
  let addr := hintAddr size alignment tag rnd
  if addr = 0 then none
  else if getMemoryTag addr ≠ tag.val then none   -- line 870
  else some addr

/-- The loop of lines 572-615, with `fuel` attempts left, the `i`-th being made at `addr`: the new `next_addr`, and the
address mapped. -/
def mmapLoop (c : Cfg) (size alignment : Nat) (tag : Tag) (o : Oracle) : Nat → Nat → Nat → Option (Nat × Option Nat)
  | 0, _, addr => some (addr, none)
  | fuel + 1, i, addr =>
    if getMemoryTag addr ≠ tag.val then none      -- line 574
    else if o.kern i = some addr then
      if addr + size ≤ 2 ^ kAddressBits ∧ addr % alignment = 0 then some (addr + size, some addr)  -- lines 590-593
      else none
    else if c.noreplace && (o.kern i).isSome then none    -- line 602
    else if !c.noreplace && (o.kern i).isNone then some (addr, none)   -- lines 604-608
    else
      match randomHint size alignment tag (o.rnd (i + 1)) with
      | none => none
      | some addr' => mmapLoop c size alignment tag o fuel (i + 1) addr'

/-- Whether the next address can be used, lines 561-563. -/
def usable (next size alignment : Nat) (tag : Tag) : Bool :=
  next != 0 && next % alignment == 0 && getMemoryTag next == tag.val && getMemoryTag (next + size - 1) == tag.val

/-- `MmapAlignedLocked`, lines 528-630. -/
def mmapLocked (c : Cfg) (w : W) (size alignment : Nat) (tag : Tag) (o : Oracle) : Option (W × Option Nat) :=
  if !c.supports tag || decide (kTagMask < size) || decide (kTagMask < alignment) then none
  else
    match (if usable (w.next tag) size alignment tag then some (w.next tag) else randomHint size alignment tag (o.rnd 0)) with
    | none => none
    | some addr =>
      (mmapLoop c size alignment tag o 1000 0 addr).map fun r =>
        let w1 := { w with next := fun t => if t = tag then r.1 else w.next t }
        match r.2 with
        | none => (w1, none)
        | some p => ({ w1 with mapped := (p, size) :: w1.mapped }, some p)

/-- `MmapRegion::Alloc`, lines 365-404. -/
def Region.alloc (c : Cfg) (r : Region) (request alignment : Nat) (prot : Bool) : Option (Region × Option (Nat × Nat)) :=
  let size := roundUp request c.huge
  if size < request then some (r, none)
  else
    let alignment := max alignment c.huge
    let end_ := r.start + r.free
    -- `end - size` in `uintptr_t` is larger than `end` exactly if it wraps
    if end_ < size then some (r, none)
    else
      let result := (end_ - size) - (end_ - size) % alignment
      if result < r.start then some (r, none)
      else
        let actual := end_ - result
        if result % c.page ≠ 0 then none     -- line 386
        else if !prot then some (r, none)
        else if r.free < actual then none
        else some ({ r with free := r.free - actual }, some (result, actual))

/-- `AddressRegion::Alloc`: the default one, or the answer of another factory's region. -/
def Region.allocAny (c : Cfg) (r : Region) (request alignment : Nat) (prot : Bool) (cust : Option (Nat × Nat)) :
    Option (Region × Option (Nat × Nat)) :=
  if r.custom then some (r, cust) else r.alloc c request alignment prot

/-- `munmap` of a mapping. -/
def W.unmap (w : W) (p size : Nat) : W := { w with mapped := w.mapped.erase (p, size) }

def W.setRegion (w : W) (tag : Tag) (r : Option Region) : W :=
  { w with region := fun t => if t = tag then r else w.region t }

/-- Lines 456-477: a mapping of its own for a large request. -/
def allocLarge (c : Cfg) (w : W) (request alignment : Nat) (tag : Tag) (o : Oracle) : Option (W × Option (Nat × Nat)) :=
  let size := roundUp request c.huge
  if size < request then some (w, none)
  else
    let alignment := max alignment c.huge
    match mmapLocked c w size alignment tag o with
    | none => none
    | some (w1, none) => some (w1, none)
    | some (w1, some ptr) =>
      if !o.create then some (w1.unmap ptr size, none)
      else
        match (Region.mk ptr size size w.custom).allocAny c size alignment o.prot1 o.cust1 with
        | none => none
        | some (_, none) => some (w1, none)
        | some (_, some res) => if res = (ptr, size) then some (w1, some res) else none   -- lines 472-473

/-- Lines 507-518: a new region. -/
def allocFresh (c : Cfg) (w : W) (request alignment : Nat) (tag : Tag) (o : Oracle) : Option (W × Option (Nat × Nat)) :=
  match mmapLocked c w c.minMmap c.minMmap tag o with
  | none => none
  | some (w1, none) => some (w1, none)
  | some (w1, some ptr) =>
    if !o.create then some ((w1.setRegion tag none).unmap ptr c.minMmap, none)
    else
      match (Region.mk ptr c.minMmap c.minMmap w.custom).allocAny c request alignment o.prot2 o.cust2 with
      | none => none
      | some (r, res) => some (w1.setRegion tag (some r), res)

/-- `AllocateFromRegion`, lines 440-519. -/
def allocFromRegion (c : Cfg) (w : W) (request alignment : Nat) (tag : Tag) (o : Oracle) :
    Option (W × Option (Nat × Nat)) :=
  if kTagFree < request ∨ kTagFree < alignment then some (w, none)
  else if c.minMmap < request ∨ c.minMmap < alignment then allocLarge c w request alignment tag o
  else if !c.supports tag then none
  else
    match w.region tag with
    | none => allocFresh c w request alignment tag o
    | some r =>
      match r.allocAny c request alignment o.prot1 o.cust1 with
      | none => none
      | some (r', some res) => some (w.setRegion tag (some r'), some res)
      | some (r', none) => allocFresh c (w.setRegion tag (some r')) request alignment tag o

/-- `Allocate`, lines 320-340. -/
def allocate (c : Cfg) (w : W) (bytes alignment : Nat) (tag : Tag) (o : Oracle) : Option (W × Option (Nat × Nat)) :=
  let alignment := max alignment c.page
  if (bytes + alignment) % 2 ^ 64 < bytes then some (w, none)
  else
    match allocFromRegion c w bytes alignment tag o with
    | none => none
    | some (w1, none) => some (w1, none)
    | some (w1, some res) =>
      -- lines 335-337
      if res.1 + res.2 - 1 < 2 ^ kAddressBits ∧ getMemoryTag res.1 = tag.val then
        some ({ w1 with given := res :: w1.given }, some res)
      else none

/-- `MmapAligned`, lines 521-526. -/
def mmapAligned (c : Cfg) (w : W) (size alignment : Nat) (tag : Tag) (o : Oracle) : Option (W × Option (Nat × Nat)) :=
  match mmapLocked c w size alignment tag o with
  | none => none
  | some (w1, none) => some (w1, none)
  | some (w1, some p) => some ({ w1 with given := (p, size) :: w1.given }, some (p, size))

/-- `SetRegionFactory` with `DiscardMappedRegions`, lines 349-363. -/
def setFactory (w : W) (custom : Bool) : W := { w with region := fun _ => none, custom := custom }

inductive Ev where
  | allocate (bytes alignment : Nat) (tag : Tag) (o : Oracle)
  | mmapAligned (size alignment : Nat) (tag : Tag) (o : Oracle)
  | setFactory (custom : Bool)

def step (c : Cfg) (w : W) : Ev → Option (W × Option (Nat × Nat))
  | .allocate b a t o => SystemAlloc.allocate c w b a t o
  | .mmapAligned s a t o => SystemAlloc.mmapAligned c w s a t o
  | .setFactory b => some (SystemAlloc.setFactory w b, none)

/-! ### Release -/

/-- `MadvisePreference`, malloc_extension.h. -/
inductive Pref | never | dontNeed | freeAndDontNeed | freeOnly
  deriving Repr, DecidableEq

/-- The answers of the system calls of one `ReleasePages`, after the loops on `EAGAIN`; and whether
`MadvDontNeedAdviceAvailable()` is plain `MADV_DONTNEED`. -/
structure RelAns where
  remove : Bool
  free : Bool
  dontNeed : Bool
  deriving Repr

inductive RelStatus | success | failure | retry
  deriving Repr, DecidableEq

/-- `ReleasePages`, lines 874-958; `plain`: the advice is `MADV_DONTNEED`. -/
def releasePages (pref : Pref) (plain : Bool) (a : RelAns) : RelStatus :=
  if a.remove then .success
  else
    -- `ret` of the last call made
    let ret1 := if pref = .freeAndDontNeed ∨ pref = .freeOnly then a.free else false
    let dn := pref = .dontNeed ∨ pref = .freeAndDontNeed
    let ret2 := if dn then a.dontNeed else ret1
    let status : RelStatus := if dn ∧ plain = true then .retry else .failure
    if ret2 then .success else status

/-- `Release`, lines 632-680: the range given to `madvise`, if any, the answer, and whether an error is counted. -/
structure RelOut where
  range : Option (Nat × Nat)
  ok : Bool
  counted : Bool
  deriving Repr, DecidableEq

def release (c : Cfg) (pref : Pref) (plain : Bool) (start length : Nat) (a1 a2 : RelAns) (munlock : Bool) : RelOut :=
  let newStart := (start + c.page - 1) - (start + c.page - 1) % c.page
  let newEnd := (start + length) - (start + length) % c.page
  if newEnd ≤ newStart then ⟨none, false, false⟩
  else
    let r := (newStart, newEnd - newStart)
    match releasePages pref plain a1 with
    | .success => ⟨some r, true, false⟩
    | .retry => if munlock && releasePages pref plain a2 == .success then ⟨some r, true, false⟩ else ⟨some r, false, true⟩
    | .failure => ⟨some r, false, true⟩

end Verif.SystemAlloc
