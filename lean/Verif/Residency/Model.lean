import Verif.Bitmap.Model
/-
Model of the code that asks the kernel about the state of memory:
/repo/tcmalloc/internal/residency.{h,cc} (`ResidencyPageMap`), pageflags.{h,cc} (`PageFlags`) and
mincore.{h,cc} (`MInCore`), and of the use huge_page_treatment.h:430-451 makes of the first two.

Addresses and sizes are natural numbers, so `addr + size + page size` does not wrap.  Pages are
`P` bytes; `x & ~(P - 1)` is written `x / P * P` (`P` is a power of two).  The kernel's tables do
not change during one call.  Every system call may fail.
-/
namespace Verif.Residency
open Verif.Bitmap (Word)

/-- What a call can end in.  `ub` is undefined behaviour: a buffer overrun, a read of an element
that was never written, or a bit set outside a bitmap. -/
inductive Out (α : Type) where
  | ub
  | fail
  | ok (a : α)
  deriving DecidableEq, Repr

def Out.bind {α β : Type} : Out α → (α → Out β) → Out β
  | .ub, _ => .ub
  | .fail, _ => .fail
  | .ok a, f => f a

instance : Monad Out where
  pure := .ok
  bind := Out.bind

/-- `/proc/self/pagemap` or `/proc/self/pageflags`: one 64-bit entry per page, indexed by page
number.  `ok n` says whether the `n`th system call on the file succeeds in full (a short read is a
failure: residency.cc:113, pageflags.cc:133). -/
structure File where
  entry : Nat → Word
  ok : Nat → Bool

/-- The open descriptor: its position, in entries, and how many calls were made on it. -/
structure Fd where
  pos : Nat
  n : Nat
  deriving DecidableEq, Repr

/-- `Seek`, residency.cc:95-103 and pageflags.cc:112-125: `vaddr / kHardwarePageSize * 8`, in
entries. -/
def seek (P : Nat) (F : File) (fd : Fd) (vaddr : Nat) : Out Fd :=
  if F.ok fd.n then .ok ⟨vaddr / P, fd.n + 1⟩ else .fail

/-- `kEntriesInBuf`, residency.h:122-124 and pageflags.h:139-141. -/
def kEntriesInBuf : Nat := 512

/-- `signal_safe_read` of `k` entries into `buf_`, a buffer of `kEntriesInBuf` entries. -/
def read (F : File) (fd : Fd) (k : Nat) : Out (List Word × Fd) :=
  if k ≤ kEntriesInBuf then
    if F.ok fd.n then
      .ok ((List.range k).map (fun i => F.entry (fd.pos + i)), ⟨fd.pos + k, fd.n + 1⟩)
    else .fail
  else .ub

/-- `ReadOne`, residency.cc:105-117; also the reads of one entry in pageflags.cc. -/
def readOne (F : File) (fd : Fd) : Out (Word × Fd) := do
  let (buf, fd) ← read F fd 1
  match buf with
  | [] => .ub
  | w :: _ => .ok (w, fd)

/-! ### `ResidencyPageMap` -/

/-- `PageSwapped`, residency.cc:41-44. -/
def pageSwapped (flags : Word) : Bool := flags &&& (1#64 <<< 62) == 1#64 <<< 62

/-- `PagePresent`, residency.cc:46-49. -/
def pagePresent (flags : Word) : Bool := flags &&& (1#64 <<< 63) == 1#64 <<< 63

/-- `kMaxResidencyBits`, range_tracker.h:133. -/
def kMaxResidencyBits : Nat := 512

/-- `Residency::Info`, residency.h:41-48. -/
structure Info where
  resident : Nat := 0
  swapped : Nat := 0
  bits : List Word := Bitmap.empty kMaxResidencyBits
  deriving DecidableEq, Repr

/-- `Bitmap::SetBit` with its result ignored. -/
def setBit (N : Nat) (b : List Word) (i : Nat) : Out (List Word) :=
  match Bitmap.setBit N b i with
  | none => .ub
  | some (b, _) => .ok b

/-- The first half of `Update`, residency.cc:58-63. -/
def updateResident (input : Word) (size index : Nat) (info : Info) : Out Info :=
  if pagePresent input then
    if index < kMaxResidencyBits then
      (setBit kMaxResidencyBits info.bits index).bind
        (fun b => .ok { info with resident := info.resident + size, bits := b })
    else .ok { info with resident := info.resident + size }
  else .ok info

/-- `Update`, residency.cc:53-67. -/
def update (input : Word) (size index : Nat) (info : Info) : Out Info := do
  let info ← updateResident input size index info
  if pageSwapped input then pure { info with swapped := info.swapped + size } else pure info

/-- The `for` loop over one batch, residency.cc:133-135. -/
def updateAll (P : Nat) : List Word → Nat → Info → Out Info
  | [], _, info => .ok info
  | w :: ws, index, info => do
    let info ← update w P index info
    updateAll P ws (index + 1) info

/-- `ReadMany`, residency.cc:119-139. -/
def readMany (P : Nat) (F : File) (fd : Fd) (num index : Nat) (info : Info) : Out (Info × Fd) :=
  if _h : num = 0 then .ok (info, fd)
  else do
    let batch := min kEntriesInBuf num
    let (buf, fd) ← read F fd batch
    let info ← updateAll P buf index info
    readMany P F fd (num - batch) (index + batch) info
termination_by num
decreasing_by simp only [kEntriesInBuf]; omega

/-- `basePage`, residency.cc:150-152, pageflags.cc:238-241, mincore.cc:54-56. -/
def basePage (P addr : Nat) : Nat := addr / P * P

/-- `endPage`, residency.cc:153-156, pageflags.cc:242-246, mincore.cc:57-59. -/
def endPage (P addr size : Nat) : Nat := (addr + size + P - 1) / P * P

/-- `ResidencyPageMap::Get`, residency.cc:141-199, on an open file. -/
def get (P : Nat) (F : File) (fd : Fd) (addr size : Nat) : Out (Info × Fd) :=
  if size = 0 then .ok ({}, fd)
  else do
    let base := basePage P addr
    let stop := endPage P addr size
    let remaining := (stop - base) / P
    let fd ← seek P F fd base
    if remaining = 1 then
      let (w, fd) ← readOne F fd
      let info ← update w size 0 {}
      pure (info, fd)
    else
      let (w, fd) ← readOne F fd
      let first := P - (addr - base)
      let info ← update w first 0 {}
      let remaining := remaining - 1
      let (info, fd) ← readMany P F fd (remaining - 1) 1 info
      let index := 1 + (remaining - 1)
      let last := P - (stop - addr - size)
      let (w, fd) ← readOne F fd
      let info ← update w last index info
      pure (info, fd)

/-- `SinglePageBitmaps`, residency.h:53-57. -/
structure Pair where
  unbacked : List Word := Bitmap.empty kMaxResidencyBits
  swapped : List Word := Bitmap.empty kMaxResidencyBits
  deriving DecidableEq, Repr

/-- The body of the loop, residency.cc:229-236. -/
def classifyOne (w : Word) (i : Nat) (r : Pair) : Out Pair :=
  if pagePresent w then .ok r
  else if pageSwapped w then
    (setBit kMaxResidencyBits r.swapped i).bind (fun b => .ok { r with swapped := b })
  else
    (setBit kMaxResidencyBits r.unbacked i).bind (fun b => .ok { r with unbacked := b })

/-- The loop residency.cc:227-237. -/
def classify : List Word → Nat → Pair → Out Pair
  | [], _, r => .ok r
  | w :: ws, i, r => do
    let r ← classifyOne w i r
    classify ws (i + 1) r

/-- `GetUnbackedAndSwappedBitmaps`, residency.cc:201-240.  `H` is `kHugePageSize`.  The failure
statuses are one outcome; with each of them the two bitmaps are empty. -/
def getBitmaps (P H : Nat) (F : File) (fd : Fd) (addr : Nat) : Out (Pair × Fd) :=
  if addr / H * H ≠ addr then .fail
  else do
    let fd ← seek P F fd addr
    let (buf, fd) ← read F fd (H / P)
    let r ← classify buf 0 {}
    pure (r, fd)

/-! ### `MInCore` -/

/-- The `mincore` system call.  `vec p` is the byte the kernel reports for page `p`; only its lowest
bit is defined (mincore.cc:74). -/
structure Core where
  vec : Nat → Word
  ok : Nat → Bool

/-- `kArrayLength`, mincore.h:56. -/
def kArrayLength : Nat := 4096

/-- `mincore(addr, length, res)`: fills the first `length / P` elements of `res`, an array of
`kArrayLength` elements.  The model's array is what the last call wrote. -/
def mincore (P : Nat) (C : Core) (n addr length : Nat) : Out (List Word) :=
  if length / P ≤ kArrayLength then
    if C.ok n then .ok ((List.range (length / P)).map (fun i => C.vec (addr / P + i))) else .fail
  else .ub

/-- The test `(res[i] & 1) == 1`. -/
def resBit (res : List Word) (i : Nat) : Out Bool :=
  match res[i]? with
  | none => .ub
  | some w => .ok (w &&& 1#64 == 1#64)

/-- The loop mincore.cc:103-120; returns the total, `resIndex` and the array.  `n` counts the system
calls.  `P > 0` makes it terminate. -/
def coreLoop (P : Nat) (C : Core) (n base remaining : Nat) (res : List Word) (i total : Nat) :
    Out (Nat × Nat × List Word) :=
  if h : 0 < P ∧ P < remaining then do
    let b ← resBit res i
    let total := if b then total + P else total
    let i := i + 1
    let base := base + P
    let rest := remaining - P
    if i = kArrayLength then
      let res ← mincore P C n base (min rest (P * kArrayLength))
      coreLoop P C (n + 1) base rest res 0 total
    else coreLoop P C n base rest res i total
  else .ok (total, i, res)
termination_by remaining
decreasing_by all_goals omega

/-- `MInCore::residence_impl`, mincore.cc:46-130.  A failing system call makes it return 0; the model
says `fail`, see `residence`. -/
def residenceImpl (P : Nat) (C : Core) (addr size : Nat) : Out Nat :=
  if size = 0 then .ok 0
  else do
    let base := basePage P addr
    let stop := endPage P addr size
    let remaining := stop - base
    if remaining = P then
      let res ← mincore P C 0 base remaining
      let b ← resBit res 0
      pure (if b then size else 0)
    else
      let res ← mincore P C 0 base (min remaining (P * kArrayLength))
      let b ← resBit res 0
      let total := if b then P - (addr - base) else 0
      let (total, i, res) ← coreLoop P C 1 (base + P) (remaining - P) res 1 total
      let b ← resBit res i
      pure (if b then total + (P - (stop - addr - size)) else total)

/-- `MInCore::residence`, mincore.cc:133-136 with the `return 0` of lines 72, 88 and 117.  `none` is
undefined behaviour. -/
def residence (P : Nat) (C : Core) (addr size : Nat) : Option Nat :=
  match residenceImpl P C addr size with
  | .ub => none
  | .fail => some 0
  | .ok r => some r

/-! ### `PageFlags` -/

/-- `PageHead`, pageflags.cc:58-61. -/
def pageHead (flags : Word) : Bool := flags &&& (1#64 <<< 15) == 1#64 <<< 15

/-- `PageTail`, pageflags.cc:62-65. -/
def pageTail (flags : Word) : Bool := flags &&& (1#64 <<< 16) == 1#64 <<< 16

/-- `PageThp`, pageflags.cc:66-69. -/
def pageThp (flags : Word) : Bool := flags &&& (1#64 <<< 22) == 1#64 <<< 22

/-- `PageHugetlbfs`, pageflags.cc:70-73. -/
def pageHugetlbfs (flags : Word) : Bool := flags &&& (1#64 <<< 17) == 1#64 <<< 17

/-- `IsHugepage`, pageflags.cc:74-76. -/
def isHugepage (flags : Word) : Bool := pageThp flags || pageHugetlbfs flags

/-- `PageStale`, pageflags.cc:77-80. -/
def pageStale (flags : Word) : Bool := flags &&& (1#64 <<< 44) == 1#64 <<< 44

/-- `PageLocked`, pageflags.cc:81-86; `KPF_UNEVICTABLE` is 18. -/
def pageLocked (flags : Word) : Bool := flags &&& ((1#64 <<< 33) ||| (1#64 <<< 18)) != 0#64

/-- `PageStats`, pageflags.h:37-48. -/
structure Stats where
  stale : Nat := 0
  locked : Nat := 0
  scanSeconds : Nat := 0
  deriving DecidableEq, Repr

/-- `MaybeAddToStats`, pageflags.cc:88-92. -/
def addToStats (s : Stats) (flags : Word) (delta : Nat) : Stats :=
  let s := if pageStale flags then { s with stale := s.stale + delta } else s
  if pageLocked flags then { s with locked := s.locked + delta } else s

/-- `MaybeReadOne`, pageflags.cc:127-167; `H` is `kHugePageSize` (2 MiB). -/
def maybeReadOne (P H : Nat) (F : File) (fd : Fd) (vaddr : Nat) : Out (Word × Bool × Fd) := do
  let fd ← seek P F fd vaddr
  let (flags, fd) ← readOne F fd
  if (pageHead flags || pageTail flags) && !pageThp flags then .fail
  else if pageTail flags then do
    let fd ← seek P F fd (vaddr / H * H)
    let (flags, fd) ← readOne F fd
    if pageTail flags then .fail else pure (flags, true, fd)
  else pure (flags, pageHead flags, fd)

/-- The sentinel `-1` of `last_head_read_`, pageflags.h:155. -/
def noHead : Word := BitVec.allOnes 64

/-- The `for` loop over one batch, pageflags.cc:181-197.  `last` is `last_head_read_`. -/
def addAll (P : Nat) : List Word → Word → Stats → Out (Stats × Word)
  | [], last, s => .ok (s, last)
  | w :: ws, last, s =>
    let last := if pageHead w then w else last
    if pageTail w then
      if last = noHead then .fail else addAll P ws last (addToStats s last P)
    else addAll P ws last (addToStats s w P)

/-- `PageFlags::ReadMany`, pageflags.cc:169-200. -/
def flagsMany (P : Nat) (F : File) (fd : Fd) (num : Nat) (last : Word) (s : Stats) :
    Out (Stats × Word × Fd) :=
  if _h : num = 0 then .ok (s, last, fd)
  else do
    let batch := min kEntriesInBuf num
    let (buf, fd) ← read F fd batch
    let (s, last) ← addAll P buf last s
    flagsMany P F fd (num - batch) last s
termination_by num
decreasing_by simp only [kEntriesInBuf]; omega

/-- `if (ret.bytes_stale > 0) ret.stale_scan_seconds = MaybeReadStaleScanSeconds();`,
pageflags.cc:257-259, 297-299 and 338-340.  `scan` is what `MaybeReadStaleScanSeconds` returns
(lines 413-441, not modelled: it reads `/sys/kernel/mm/kstaled/scan_seconds`). -/
def withScan (scan : Nat) (s : Stats) : Stats :=
  if 0 < s.stale then { s with scanSeconds := scan } else s

/-- What `Get` does after the first page when the range goes on past its hugepage,
pageflags.cc:303-320: the statistics, the pages that remain and the descriptor. -/
def afterFirst (P H : Nat) (F : File) (fd : Fd) (base : Nat) (flags : Word) (huge : Bool)
    (first represented remaining : Nat) : Out (Stats × Nat × Fd) :=
  if huge then
    (seek P F fd (base / H * H + H)).bind (fun fd =>
      .ok (addToStats {} flags (first + (represented - 1) * P), remaining - represented, fd))
  else .ok (addToStats {} flags first, remaining - 1, fd)

/-- `PageFlags::Get`, pageflags.cc:225-342, on an open file. -/
def flagsGet (P H scan : Nat) (F : File) (fd : Fd) (addr size : Nat) : Out Stats :=
  if size = 0 then .ok {}
  else do
    let base := basePage P addr
    let stop := endPage P addr size
    let remaining := (stop - base) / P
    if remaining = 1 then
      let (flags, _, _) ← maybeReadOne P H F fd base
      pure (withScan scan (addToStats {} flags size))
    else
      let (flags, huge, fd) ← maybeReadOne P H F fd base
      let first := P - (addr - base)
      let represented := H / P - base % H / P
      if huge && remaining ≤ represented then
        pure (withScan scan (addToStats {} flags size))
      else
        let (s, remaining, fd) ← afterFirst P H F fd base flags huge first represented remaining
        let (s, _, fd) ← flagsMany P F fd (remaining - 1) noHead s
        let last := P - (stop - addr - size)
        let (flags, _, _) ← maybeReadOne P H F fd (stop - P)
        pure (withScan scan (addToStats s flags last))

/-- `PageFlags::IsHugepageBacked`, pageflags.cc:202-223 (on an open file): `none` is
`std::nullopt`. -/
def isHugepageBacked (P : Nat) (F : File) (fd : Fd) (addr : Nat) : Option Bool :=
  match seek P F fd (basePage P addr) with
  | .ok fd =>
    match readOne F fd with
    | .ok (w, _) => some (isHugepage w)
    | _ => none
  | _ => some false

/-- `Bitmap::SetRange`. -/
def setRange (N : Nat) (b : List Word) (i n : Nat) : Out (List Word) :=
  match Bitmap.setRangeValue true N b i n with
  | none => .ub
  | some b => .ok b

/-- The loop pageflags.cc:379-404; `start` is `stale_start` (`none` for -1).  When the loop ends the
open run is closed (lines 405-407). -/
def staleRuns : List Word → Nat → Word → Option Nat → List Word → Out (List Word)
  | [], i, _, start, b =>
    match start with
    | none => .ok b
    | some st => setRange kMaxResidencyBits b st (i - st)
  | w :: ws, i, last, start, b =>
    let last := if pageHead w then w else last
    if pageTail w && last == noHead then .fail
    else
      let flags := if pageTail w then last else w
      if pageStale flags then staleRuns ws (i + 1) last (some (start.getD i)) b
      else
        match start with
        | none => staleRuns ws (i + 1) last none b
        | some st => do
          let b ← setRange kMaxResidencyBits b st (i - st)
          staleRuns ws (i + 1) last none b

/-- `PageFlags::GetSinglePageBitmaps`, pageflags.cc:343-411, on an open file.  A failure is one
outcome; the bitmap it leaves may be a prefix of the answer. -/
def staleBitmap (P H : Nat) (F : File) (fd : Fd) (addr : Nat) : Out (List Word) :=
  if addr % H ≠ 0 then .fail
  else do
    let fd ← seek P F fd addr
    let (buf, _) ← read F fd (H / P)
    staleRuns buf 0 noHead none (Bitmap.empty kMaxResidencyBits)

/-! ### What the hugepage treatment records -/

/-- The `unbacked` bitmap of `HugePageResidencyState`, huge_page_treatment.h:443-446: the native
pages' bitmap scaled to the allocator's `M` pages per hugepage. -/
def treatUnbacked (P H M : Nat) (r : Pair) : Option (List Word) :=
  Bitmap.scale kMaxResidencyBits M r.unbacked (H / P) true

/-- The `swapped` bitmap, huge_page_treatment.h:447-448. -/
def treatSwapped (P H M : Nat) (r : Pair) : Option (List Word) :=
  Bitmap.scale kMaxResidencyBits M r.swapped (H / P) false

/-- The `stale` bitmap, huge_page_treatment.h:449-452. -/
def treatStale (P H M : Nat) (b : List Word) : Option (List Word) :=
  Bitmap.scale kMaxResidencyBits M b (H / P) false

end Verif.Residency
