import Verif.MemoryTag.Model
/-
Model of the allocation entry points: /repo/tcmalloc/tcmalloc.cc, /repo/tcmalloc/tcmalloc_policy.h,
/repo/tcmalloc/allocation_sampling.h, /repo/tcmalloc/internal/overflow.h.

The caches, the page heap and the guarded-page allocator are *inputs* here: every allocation takes an
`Ans` saying what they answered (and what memory looks like afterwards).  `Spec.lean` states the
contract such answers satisfy.  Hooks, the sampler's counters and statistics are not modelled.
Sizes are `size_t` values (`< 2^64`); arithmetic that can wrap is taken modulo 2^64.
-/
namespace Verif.Frontend
open Verif.SizeMap (Cfg Maps Policy Res getSizeClass bytesToLengthCeil kHugePageShift)
open Verif.MemoryTag

/-- What the entry points read from `tc_globals`: the size map, `active_partitions()`
(static_vars.h:112-115) and the OS page size (`GetPageSize()`). -/
structure Env where
  cfg : Cfg
  maps : Maps
  activeParts : Nat
  osPage : Nat

/-- `AllocationType`, tcmalloc_policy.h:326-334. -/
inductive AllocType | new | malloc | alignedMalloc
  deriving Repr, DecidableEq

/-- The entry-point families, i.e. which align and OOM policy the call starts from:
`MallocPolicy()` (malloc, calloc, realloc), `MallocPolicy().AlignAs(a)` (memalign and friends),
`CppPolicy()` (operator new), `CppPolicy().AlignAs(a)` (aligned new), tcmalloc_policy.h:527-528. -/
inductive Kind | malloc | memalign (a : Nat) | new | newAligned (a : Nat)
  deriving Repr, DecidableEq

/-- `align()`: `MallocAlignPolicy` = alignof(max_align_t) = 16, `DefaultAlignPolicy` = 1,
tcmalloc_policy.h:131-168. -/
def Kind.align : Kind → Nat
  | .malloc => 16
  | .memalign a => a
  | .new => 1
  | .newAligned a => a

/-- `allocation_type()`, tcmalloc_policy.h:326-334. -/
def Kind.type : Kind → AllocType
  | .malloc => .malloc
  | .memalign _ => .alignedMalloc
  | .new => .new
  | .newAligned _ => .new

/-- `has_explicit_alignment() ? align() : nullopt`, tcmalloc_policy.h:337-341. -/
def Kind.explicitAlign : Kind → Option Nat
  | .malloc => some 16
  | .memalign a => some a
  | .new => none
  | .newAligned a => some a

/-- The three OOM policies, tcmalloc_policy.h:105-129. -/
inductive Oom | null | malloc | cpp
  deriving Repr, DecidableEq

/-- A `TCMallocPolicy` value, tcmalloc_policy.h:300-525. -/
structure Pol where
  kind : Kind
  oom : Oom
  sizeRet : Bool
  cold : Bool
  secPart : Nat
  numaPart : Nat
  deriving Repr, DecidableEq

/-- The part of the policy `GetSizeClass` reads.  The alignment is a compile-time constant exactly
when it does not come from `AlignAs`. -/
def Pol.sm (p : Pol) : Policy where
  align := p.kind.align
  isCold := p.cold
  isNew := decide (p.kind.type = .new)
  secPart := p.secPart
  numaPart := p.numaPart
  constAlign := match p.kind with | .malloc => true | .new => true | _ => false

/-- `policy.partition()`, tcmalloc_policy.h:362-367. -/
def Pol.partition (cfg : Cfg) (p : Pol) : Nat :=
  if cfg.secParts = 1 then p.numaPart else p.secPart

/-- The tag `do_malloc_pages` asks the page heap for, tcmalloc.cc:635-643. -/
def largeTag (env : Env) (p : Pol) : Option Tag :=
  if p.cold && (!env.cfg.modeFull || decide (p.secPart = 0)) then some .cold
  else if env.activeParts > 1 then multiNormalTag (p.partition env.cfg)
  else some .normalP0

/-- The tag `SampleifyAllocation` asks for, allocation_sampling.h:119-123. -/
def sampledTag (env : Env) (p : Pol) : Tag :=
  if env.cfg.modeFull && decide (p.partition env.cfg = 1) then .sampledP1 else .sampled

/-- The sampled-allocation record, allocation_sampling.h:94-118 (the fields deallocation checks). -/
structure Sample where
  requested : Nat
  allocated : Nat
  sizeRet : Bool
  type : AllocType
  align : Option Nat
  guarded : Bool
  deriving Repr, DecidableEq

/-- What the metadata says about a live block: its address, the page map's size class for its page
(0 = none), and its span (start address, length, sample record).  A guarded allocation is one
with `sample.guarded` (`PointerIsMine`); `GetRequestedSize` is the size it was created for. -/
structure Block where
  addr : Nat
  cls : Nat
  spanStart : Nat
  spanBytes : Nat
  sample : Option Sample
  deriving Repr, DecidableEq

/-- `PointerIsMine`. -/
def Block.guarded (b : Block) : Bool := match b.sample with | some s => s.guarded | none => false

/-- `GetLargeSizeAndSampled`, tcmalloc.cc:538-550, and `GetSizeAndSampled`, 556-571.  `none`: a class
number outside `class_to_size_`. -/
def getSize (env : Env) (b : Block) : Option Nat :=
  if b.cls ≠ 0 then env.maps.classToSize[b.cls]?
  else match b.sample with
    | some s => if s.guarded then some s.requested else some s.allocated
    | none => some b.spanBytes

/-- Memory, the live blocks and `errno`. -/
structure Heap where
  mem : Nat → UInt8
  live : List Block
  errno : Nat

/-- Ways a call can end without returning. -/
inductive Stop | oomCrash | alignCheck | mismatchedSize | mismatchedType | mismatchedAlign
  | corrupted | ub
  deriving Repr, DecidableEq

/-- What the small-object machinery answered: out of memory, an object of the class from a cache
(per-CPU, thread, transfer, central), a sampled object on its own span, or a guarded one. -/
inductive SmallAns | null | cached (addr spanStart spanBytes : Nat) | ownSpan (addr : Nat)
  | guarded (addr spanStart : Nat)
  deriving Repr, DecidableEq

/-- What the page heap answered. -/
inductive LargeAns | null | pages (addr : Nat) (sampled : Bool)
  deriving Repr, DecidableEq

/-- One allocation's answers, with memory as it is afterwards. -/
structure Ans where
  small : SmallAns
  large : LargeAns
  mem : Nat → UInt8

/-- `Length::in_bytes` on `size_t`, pages.h. -/
def inBytes64 (cfg : Cfg) (pages : Nat) : Nat := (pages <<< cfg.pageShift) % 2 ^ 64

/-- `kPagesPerHugePage`, huge_pages.h. -/
def pagesPerHuge (cfg : Cfg) : Nat := 2 ^ (kHugePageShift - cfg.pageShift)

def kENOMEM : Nat := 12
def kEINVAL : Nat := 22

/-- `handle_oom`, tcmalloc_policy.h:105-129. -/
def handleOom {α : Type} (oom : Oom) (h : Heap) : Except Stop (Heap × Option α) :=
  match oom with
  | .null => .ok (h, none)
  | .malloc => .ok ({ h with errno := kENOMEM }, none)
  | .cpp => .error .oomCrash

/-- The sample record made by `SampleifyAllocation`, allocation_sampling.h:94-118 and 149-151. -/
def mkSample (p : Pol) (requested allocated : Nat) (guarded : Bool) : Sample where
  requested := requested
  allocated := if guarded && p.sizeRet then requested else allocated
  sizeRet := p.sizeRet
  type := p.kind.type
  align := p.kind.explicitAlign
  guarded := guarded

/-- `fast_alloc` with its slow paths `slow_alloc_small`, `alloc_small_sampled_hooks_or_perthread`,
`slow_alloc_large`, `do_malloc_pages` and `SampleifyAllocation` (tcmalloc.cc:631-661, 1191-1309;
allocation_sampling.h:88-226).  Returns the block and the capacity reported to size-returning
callers.  `alignCheck` is the `TC_CHECK_LE(align, kPagesPerHugePage)` of
huge_page_aware_allocator.h:779. -/
def fastAlloc (env : Env) (p : Pol) (h : Heap) (size : Nat) (ans : Ans) :
    Except Stop (Heap × Option (Block × Nat)) :=
  match getSizeClass env.cfg env.maps p.sm size with
  | none => .error .ub
  | some .large =>
    if bytesToLengthCeil env.cfg p.kind.align > pagesPerHuge env.cfg then .error .alignCheck
    else
      match ans.large with
      | .null => handleOom p.oom { h with mem := ans.mem }
      | .pages addr sampled =>
        let bytes := inBytes64 env.cfg (max (bytesToLengthCeil env.cfg size) 1)
        let b : Block := ⟨addr, 0, addr, bytes, if sampled then some (mkSample p size bytes false) else none⟩
        .ok ({ h with mem := ans.mem, live := b :: h.live }, some (b, bytes))
  | some (.small c) =>
    match env.maps.classToSize[c]? with
    | none => .error .ub
    | some bytes =>
      match ans.small with
      | .null => handleOom p.oom { h with mem := ans.mem }
      | .cached addr ss sb =>
        let b : Block := ⟨addr, c, ss, sb, none⟩
        .ok ({ h with mem := ans.mem, live := b :: h.live }, some (b, bytes))
      | .ownSpan addr =>
        let b : Block := ⟨addr, 0, addr, inBytes64 env.cfg (bytesToLengthCeil env.cfg bytes),
          some (mkSample p size bytes false)⟩
        .ok ({ h with mem := ans.mem, live := b :: h.live }, some (b, bytes))
      | .guarded addr ss =>
        let b : Block := ⟨addr, 0, ss, inBytes64 env.cfg (bytesToLengthCeil env.cfg bytes),
          some (mkSample p size bytes true)⟩
        .ok ({ h with mem := ans.mem, live := b :: h.live }, some (b, size))

/-- Where a freed block goes. -/
inductive Dest | nothing | small (c : Nat) | pages | guardedPages
  deriving Repr, DecidableEq

/-- `SimplifyType`, allocation_sampling.h:244-254. -/
def simplifyType : AllocType → AllocType
  | .new => .new
  | .malloc => .malloc
  | .alignedMalloc => .malloc

/-- The checks of `MaybeUnsampleAllocation`, allocation_sampling.h:261-349. -/
def unsampleChecks (env : Env) (k : Kind) (size : Option Nat) (b : Block) : Except Stop Unit :=
  match b.sample with
  | none =>
    match size with
    | none => .ok ()
    | some sz =>
      if (sz < b.spanBytes - (env.cfg.pageSize - 1) ∨ sz > b.spanBytes) ∧
          ¬ (sz = 0 ∧ b.spanBytes = env.cfg.pageSize ∧ k.align > env.cfg.pageSize) then
        .error .mismatchedSize
      else .ok ()
  | some s =>
    if (match size with
        | none => false
        | some sz =>
          if s.sizeRet then !(decide (s.requested ≤ sz) && decide (sz ≤ s.allocated))
          else decide (sz ≠ s.requested)) then .error .mismatchedSize
    else if simplifyType k.type ≠ simplifyType s.type then .error .mismatchedType
    else if b.addr ≠ b.spanStart ∧ s.guarded = false then .error .corrupted
    else if (size.isSome ∨ k.type = .new) ∧ (k.type ≠ s.type ∨ k.explicitAlign ≠ s.align) then
      .error .mismatchedAlign
    else .ok ()

/-- `InvokeHooksAndFreePages`, tcmalloc.cc:667-756, for the span of a live block.  Freeing through
here an address the page map gives a size class for is reported as corruption (719-724); a
guarded pointer's own alignment check is `PointerIsCorrectlyAligned`, part of the guarded-page
allocator. -/
def freePages (env : Env) (k : Kind) (size : Option Nat) (b : Block) : Except Stop Dest :=
  match unsampleChecks env k size b with
  | .error e => .error e
  | .ok () =>
    if b.cls ≠ 0 then .error .corrupted
    else if b.guarded then .ok .guardedPages
    else if b.addr ≠ b.spanStart then .error .corrupted
    else .ok .pages

/-- `do_free` with `do_unsized_free_irregular`, tcmalloc.cc:782-841. -/
def doFree (env : Env) (k : Kind) (b : Block) : Except Stop Dest :=
  match ptrKind b.addr with
  | .fastNormal => if b.cls ≠ 0 then .ok (.small b.cls) else freePages env k none b
  | .null => .ok .nothing
  | .cold | .irregular =>
    if b.addr &&& kBadHighMask ≠ 0 then .error .corrupted
    else if b.addr &&& kBadAlignmentMask ≠ 0 ∧ isSampledMemory b.addr = false then .error .corrupted
    else if b.cls ≠ 0 then .ok (.small b.cls) else freePages env k none b

/-- `InPartition(partition)`, tcmalloc_policy.h:458-484. -/
def Pol.inPartition (cfg : Cfg) (p : Pol) (part : Nat) : Pol :=
  { p with numaPart := part % cfg.numaParts, secPart := (part - part % cfg.numaParts) / cfg.numaParts }

/-- `fast_free_with_size`, tcmalloc.cc:927-999. -/
def fastFreeWithSize (env : Env) (p : Pol) (size : Nat) (b : Block) : Except Stop Dest :=
  let part := if p.cold || decide (partitionFromPointerFast env.cfg b.addr = 0) then 0 else 1
  match getSizeClass env.cfg env.maps (p.inPartition env.cfg part).sm size with
  | none => .error .ub
  | some (.small c) => .ok (.small c)
  | some .large => freePages env p.kind (some size) b

/-- `do_free_with_size` with `handle_sampled_or_illformed_ptrs`, tcmalloc.cc:843-925. -/
def doFreeWithSize (env : Env) (p : Pol) (size : Nat) (b : Block) : Except Stop Dest :=
  match ptrKind b.addr with
  | .fastNormal => fastFreeWithSize env { p with cold := false } size b
  | .null => .ok .nothing
  | .cold => fastFreeWithSize env { p with cold := true } size b
  | .irregular =>
    if isSampledMemory b.addr then freePages env p.kind (some size) b
    else if b.addr &&& kBadHighMask ≠ 0 then .error .corrupted
    else
      match getSizeClass env.cfg env.maps p.sm size with
      | none => .error .ub
      | some .large => freePages env p.kind (some size) b
      | some (.small _) => .error .corrupted

/-- A block leaves the heap. -/
def Heap.remove (h : Heap) (b : Block) : Heap := { h with live := h.live.erase b }

/-- `free(ptr)` on the block `b`, tcmalloc.cc:1700-1703 (and `operator delete`, 1730-1742). -/
def free (env : Env) (k : Kind) (h : Heap) (b : Block) : Except Stop (Heap × Dest) :=
  match doFree env k b with
  | .error e => .error e
  | .ok d => .ok (h.remove b, d)

/-- `free_sized`, `free_aligned_sized`, `sdallocx`, sized delete: tcmalloc.cc:1705-1728, 1744-1752. -/
def freeSized (env : Env) (p : Pol) (h : Heap) (size : Nat) (b : Block) :
    Except Stop (Heap × Dest) :=
  match doFreeWithSize env p size b with
  | .error e => .error e
  | .ok d => .ok (h.remove b, d)

/-- `__builtin_mul_overflow`, the first branch of overflow.h:28-35: (overflowed, product). -/
def mulOverflow (a b : Nat) : Bool × Nat := (decide (a * b ≥ 2 ^ 64), a * b % 2 ^ 64)
/-- The fallback branch, overflow.h:32-33. -/
def mulOverflowFallback (a b : Nat) : Bool × Nat :=
  (decide (b ≠ 0) && decide ((a * b % 2 ^ 64) / b ≠ a), a * b % 2 ^ 64)

/-- `MallocPolicy()` on a thread whose NUMA partition is `numa`; `DefaultPartitionPolicy` is
partition 1, or 0 when there is only one (tcmalloc_policy.h:265-268, 354-359). -/
def mallocPol (cfg : Cfg) (numa : Nat) : Pol :=
  ⟨.malloc, .malloc, false, false, if cfg.secParts = 1 then 0 else 1, numa⟩

/-- `memset(p, 0, n)`. -/
def memset0 (mem : Nat → UInt8) (p n : Nat) : Nat → UInt8 :=
  fun a => if p ≤ a ∧ a < p + n then 0 else mem a

/-- `memcpy(dst, src, n)`. -/
def memcpy (mem : Nat → UInt8) (dst src n : Nat) : Nat → UInt8 :=
  fun a => if dst ≤ a ∧ a < dst + n then mem (src + (a - dst)) else mem a

/-- `malloc`, tcmalloc.cc:1460-1463. -/
def malloc (env : Env) (numa : Nat) (h : Heap) (size : Nat) (ans : Ans) :
    Except Stop (Heap × Option Block) :=
  match fastAlloc env (mallocPol env.cfg numa) h size ans with
  | .error e => .error e
  | .ok (h', r) => .ok (h', r.map (·.1))

/-- `calloc`, tcmalloc.cc:1557-1568. -/
def calloc (env : Env) (numa : Nat) (h : Heap) (n elem : Nat) (ans : Ans) :
    Except Stop (Heap × Option Block) :=
  if (mulOverflow n elem).1 then handleOom .malloc h
  else
    match malloc env numa h (mulOverflow n elem).2 ans with
    | .error e => .error e
    | .ok (h', none) => .ok (h', none)
    | .ok (h', some b) =>
      .ok ({ h' with mem := memset0 h'.mem b.addr (mulOverflow n elem).2 }, some b)

/-- The size `do_realloc` expects of a fresh block, tcmalloc.cc:1594-1605. -/
def actualNewSize (env : Env) (b : Block) (newSize : Nat) : Option Nat :=
  match getSizeClass env.cfg env.maps
      ((mallocPol env.cfg 0).inPartition env.cfg (partitionFromPointer env.cfg b.addr)).sm newSize with
  | none => none
  | some (.small c) => env.maps.classToSize[c]?
  | some .large => some (inBytes64 env.cfg (bytesToLengthCeil env.cfg newSize))

/-- The policy of the new block in `do_realloc` (`InPartitionWithToken`), tcmalloc.cc:1610-1614;
tcmalloc_policy.h:488-499: the NUMA partition stays the thread's own. -/
def reallocPol (env : Env) (numa : Nat) (b : Block) : Pol :=
  { (mallocPol env.cfg numa).inPartition env.cfg (partitionFromPointer env.cfg b.addr) with
    numaPart := numa }

/-- `do_realloc`, tcmalloc.cc:1570-1634.  `willSample` is `WillRecordAllocation`. `memcpy` between
overlapping ranges is undefined behaviour. -/
def doRealloc (env : Env) (numa : Nat) (h : Heap) (b : Block) (newSize : Nat) (willSample : Bool)
    (ans : Ans) : Except Stop (Heap × Option Block) :=
  match getSize env b, actualNewSize env b newSize with
  | some old, some actual =>
    if decide (actual ≠ old) || b.sample.isSome || (decide (newSize ≤ env.cfg.maxSize) && willSample)
        || b.guarded then
      match fastAlloc env (reallocPol env numa b) h newSize ans with
      | .error e => .error e
      | .ok (h', none) => .ok (h', none)
      | .ok (h', some (nb, _)) =>
        let n := if old < newSize then old else newSize
        if b.addr < nb.addr + n ∧ nb.addr < b.addr + n then .error .ub
        else
          match free env .malloc { h' with mem := memcpy h'.mem nb.addr b.addr n } b with
          | .error e => .error e
          | .ok (h'', _) => .ok (h'', some nb)
    else .ok (h, some b)
  | _, _ => .error .ub

/-- `realloc`, tcmalloc.cc:1636-1650; `ptr` is null (`none`) or a block. -/
def realloc (env : Env) (numa : Nat) (h : Heap) (ptr : Option Block) (size : Nat)
    (willSample : Bool) (ans : Ans) : Except Stop (Heap × Option Block) :=
  match ptr with
  | none => malloc env numa h size ans
  | some b =>
    if b.addr &&& kBadHighMask ≠ 0 then .error .corrupted
    else if size = 0 then
      match free env .malloc h b with
      | .error e => .error e
      | .ok (h', _) => .ok (h', none)
    else doRealloc env numa h b size willSample ans

/-- `reallocarray`, tcmalloc.cc:1652-1666. -/
def reallocArray (env : Env) (numa : Nat) (h : Heap) (ptr : Option Block) (n elem : Nat)
    (willSample : Bool) (ans : Ans) : Except Stop (Heap × Option Block) :=
  if (mulOverflow n elem).1 then handleOom .malloc h
  else
    match ptr with
    | none => malloc env numa h (mulOverflow n elem).2 ans
    | some b =>
      if (mulOverflow n elem).2 = 0 then
        match free env .malloc h b with
        | .error e => .error e
        | .ok (h', _) => .ok (h', none)
      else doRealloc env numa h b (mulOverflow n elem).2 willSample ans

/-- `absl::has_single_bit` on a `size_t`: `x != 0 && (x & (x - 1)) == 0`. -/
def hasSingleBit (x : Nat) : Bool := decide (x ≠ 0) && decide (x &&& (x - 1) = 0)

/-- `memalign`, tcmalloc.cc:1518-1521. -/
def memalign (env : Env) (numa : Nat) (h : Heap) (align size : Nat) (ans : Ans) :
    Except Stop (Heap × Option Block) :=
  match fastAlloc env { mallocPol env.cfg numa with kind := .memalign align } h size ans with
  | .error e => .error e
  | .ok (h', r) => .ok (h', r.map (·.1))

/-- `aligned_alloc`, tcmalloc.cc:1819-1832. -/
def alignedAlloc (env : Env) (numa : Nat) (h : Heap) (align size : Nat) (ans : Ans) :
    Except Stop (Heap × Option Block) :=
  if !hasSingleBit align then .ok ({ h with errno := kEINVAL }, none)
  else memalign env numa h align size ans

/-- `posix_memalign`, tcmalloc.cc:1834-1847: the status and what is stored through `result_ptr`
(`none`: nothing stored). -/
def posixMemalign (env : Env) (numa : Nat) (h : Heap) (align size : Nat) (ans : Ans) :
    Except Stop (Heap × Nat × Option Block) :=
  if align % 8 ≠ 0 ∨ hasSingleBit align = false then .ok (h, kEINVAL, none)
  else
    match memalign env numa h align size ans with
    | .error e => .error e
    | .ok (h', none) => .ok (h', kENOMEM, none)
    | .ok (h', some b) => .ok (h', 0, some b)

/-- `valloc`, tcmalloc.cc:1849-1853. -/
def valloc (env : Env) (numa : Nat) (h : Heap) (size : Nat) (ans : Ans) :
    Except Stop (Heap × Option Block) := memalign env numa h env.osPage size ans

/-- The rounding of `pvalloc`, tcmalloc.cc:1858-1862: `(size + page - 1) & ~(page - 1)` in 64 bits. -/
def pvallocSize (osPage size : Nat) : Nat :=
  let s := if size = 0 then osPage else size
  ((s + osPage - 1) % 2 ^ 64) &&& ((2 ^ 64 - 1) ^^^ (osPage - 1))

/-- `pvalloc`, tcmalloc.cc:1855-1864. -/
def pvalloc (env : Env) (numa : Nat) (h : Heap) (size : Nat) (ans : Ans) :
    Except Stop (Heap × Option Block) :=
  memalign env numa h env.osPage (pvallocSize env.osPage size) ans

/-- `CppPolicy()` / `CppPolicy().AlignAs(align)` in the default partition. -/
def cppPol (cfg : Cfg) (numa : Nat) (kind : Kind) : Pol :=
  ⟨kind, .cpp, false, false, if cfg.secParts = 1 then 0 else 1, numa⟩

/-- `nallocx`/`nallocx_slow`, tcmalloc.cc:382-412 (and `GetEstimatedAllocatedSize`, 1328-1340, which is
the same computation with no flags). -/
def nallocx (env : Env) (numa size flags : Nat) : Option Nat :=
  let kind := if flags = 0 then Kind.new else .newAligned (2 ^ (flags % 64))
  match getSizeClass env.cfg env.maps (cppPol env.cfg numa kind).sm size with
  | none => none
  | some (.small c) => env.maps.classToSize[c]?
  | some .large => some (inBytes64 env.cfg (bytesToLengthCeil env.cfg size))

end Verif.Frontend
