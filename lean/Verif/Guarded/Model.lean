import Verif.Bitmap.Props
/-!
Model of `GuardedPageAllocator`, /repo/tcmalloc/guarded_page_allocator.{h,cc}.

Addresses are natural numbers.  `none` = a failed check or assertion or undefined behaviour.  The allocator's lock
protects only the reservation and the return of a slot; what a call does before and after is done without the lock, so a
call is split there: an allocation in progress is listed in `allocs`, a deallocation in progress in `frees` (its counter
was incremented) and then in `backs` (its page is inaccessible again); anything else may happen in between.

The kernel is modelled by `acc` (which object pages are accessible; guard pages never are) and `mem` (the bytes).  Its
answers to `mprotect` are given with the steps.  Simplifications: stack traces, thread ids, statistics other than the two
page counters, and the stack-trace filter (a separate model) are omitted; `rand_` is an arbitrary number given with the call.
-/
namespace Verif.Guarded
open Verif.Bitmap (Word)

/-- `kGpaMaxPages`, guarded_page_allocator.h:77. -/
def maxPages : Nat := 512
/-- `kMagicSize`, line 219. -/
def magicSize : Nat := 32
/-- The greater of `kAlignment` and `__STDCPP_DEFAULT_NEW_ALIGNMENT__` (common.h; 16 on the targets). -/
def newAlign : Nat := 16

/-- What `Init` and `MapPages` set up: guarded_page_allocator.cc:55-72 and 410-446.  `base` is what `MmapAligned` returned. -/
structure Cfg where
  base : Nat
  ps : Nat
  total : Nat
  limit : Nat
  deriving Repr

/-- The checks in `Init` (lines 57-59), the alignment `MmapAligned` was asked for, and that the page size is a power of two
of at least 16 bytes. -/
structure Cfg.OK (c : Cfg) : Prop where
  ps : ∃ k, c.ps = 2 ^ k ∧ 4 ≤ k
  base : c.base % c.ps = 0
  base0 : 0 < c.base
  limit : 0 < c.limit
  limit_total : c.limit ≤ c.total
  total : c.total ≤ maxPages

/-- `first_page_addr_`, line 443. -/
def Cfg.first (c : Cfg) : Nat := (c.base + c.ps) / c.ps * c.ps
/-- `pages_end_addr_`, line 440. -/
def Cfg.fin (c : Cfg) : Nat := c.base + (2 * c.total + 1) * c.ps

/-- `GetPageAddr`, lines 506-509; the page size is a power of two. -/
def Cfg.pageAddr (c : Cfg) (addr : Nat) : Nat := addr / c.ps * c.ps

/-- `SlotToAddr`, lines 569-572. -/
def Cfg.slotAddr (c : Cfg) (slot : Nat) : Option Nat :=
  if slot < c.total then some (c.first + 2 * slot * c.ps) else none

/-- `AddrToSlot`, lines 574-581. -/
def Cfg.addrSlot (c : Cfg) (addr : Nat) : Option Nat :=
  if c.first ≤ addr then
    let offset := addr - c.first
    if offset % c.ps = 0 ∧ (offset / c.ps) % 2 = 0 ∧ offset / c.ps / 2 < c.total then some (offset / c.ps / 2) else none
  else none

/-- `GetNearestValidPage`, lines 511-528. -/
def Cfg.nearestPage (c : Cfg) (addr : Nat) : Nat :=
  if addr < c.first then c.first
  else
    let last := c.first + 2 * (c.total - 1) * c.ps
    if addr > last then last
    else
      let offset := addr - c.first
      if (offset / c.ps) % 2 = 0 then addr
      else
        let half := c.ps / 2
        if (offset / half) % 2 = 0 then addr - half else addr + half

/-- `GetNearestSlot`, lines 530-532. -/
def Cfg.nearestSlot (c : Cfg) (addr : Nat) : Option Nat := c.addrSlot (c.pageAddr (c.nearestPage addr))

/-- `PointerIsMine`, guarded_page_allocator.h:169-172. -/
def Cfg.mine (c : Cfg) (addr : Nat) : Bool := decide (c.base ≤ addr ∧ addr < c.fin)

/-- `ShouldRightAlign`, guarded_page_allocator.h:256. -/
def rightAligned (slot : Nat) : Bool := slot % 2 = 0

/-- `GetWriteOverflowMagic`, guarded_page_allocator.h:250-253. -/
def magic (slot : Nat) : Nat := (0xcd * ((slot / 2) % 256)) % 256

/-- `absl::bit_ceil` for positive arguments. -/
def bitCeil (n : Nat) : Nat := if n ≤ 1 then 1 else 2 ^ (Nat.log2 (n - 1) + 1)

/-- The alignment `MaybeRightAlign` establishes, lines 596-604. -/
def effAlign (size al : Nat) : Nat := max al (min (bitCeil size) newAlign)

/-- `MaybeRightAlign` for the page at `page`: the address, and the length of the padding behind it, lines 583-616. -/
def rightAlign (c : Cfg) (slot page size al : Nat) : Nat × Nat :=
  if rightAligned slot then
    let adj := page + c.ps - size
    let padding := adj % effAlign size al
    (adj - padding, padding)
  else (page, 0)

/-- `SlotMetadata` without the stack traces, guarded_page_allocator.h:206-214. -/
structure Meta where
  size : Nat
  start : Nat
  count : Nat
  overflow : Bool
  deriving Repr, DecidableEq

/-- An object handed out: address, slot, requested size and alignment. -/
structure Obj where
  ptr : Nat
  slot : Nat
  size : Nat
  al : Nat
  deriving Repr, DecidableEq

structure S where
  used : List Word
  allocated : Nat
  high : Nat
  data : Nat → Meta
  acc : Nat → Bool
  mem : Nat → Nat
  allocs : List (Nat × Nat × Nat)
  frees : List (Nat × Nat)
  backs : List Nat

/-- The state after `Init`: every page is inaccessible. -/
def S.init (mem : Nat → Nat) : S :=
  { used := Bitmap.empty maxPages, allocated := 0, high := 0, data := fun _ => ⟨0, 0, 0, false⟩, acc := fun _ => false, mem := mem,
    allocs := [], frees := [], backs := [] }

def upd {α : Type} (f : Nat → α) (i : Nat) (x : α) : Nat → α := fun j => if j = i then x else f j

/-- `GetFreeSlot`, lines 487-495; `r` is `rand_.Next()`. -/
def getFreeSlot (c : Cfg) (s : S) (r : Nat) : Option Nat :=
  let idx := r % c.total
  match Bitmap.findValueBackwards false maxPages s.used idx with
  | none => none
  | some slot =>
    if 0 ≤ slot then some slot.toNat
    else
      match Bitmap.findValue false maxPages s.used idx with
      | none => none
      | some slot => if slot < c.total then some slot else none

/-- `ReserveFreeSlot`, lines 459-484, as the first part of `Allocate` (lines 165-170); the allocator is initialized and
allocations are allowed.  Inner `none`: `NoAvailableSlots`. -/
def reserve (c : Cfg) (s : S) (size al r : Nat) : Option (S × Option Nat) :=
  if c.limit < s.allocated then none
  else if c.limit - s.allocated = 0 then some (s, none)
  else
    match getFreeSlot c s r with
    | none => none
    | some slot =>
      match Bitmap.getBit maxPages s.used slot, Bitmap.setBit maxPages s.used slot with
      | some false, some (used, _) =>
        some ({ s with used := used, allocated := s.allocated + 1, high := max s.high (s.allocated + 1),
                       allocs := s.allocs ++ [(slot, size, al)] }, some slot)
      | _, _ => none

/-- `FreeSlot`, lines 497-504. -/
def freeSlot (c : Cfg) (s : S) (slot : Nat) : Option S :=
  if slot < c.total ∧ 0 < s.allocated then
    match Bitmap.getBit maxPages s.used slot, Bitmap.clearBit maxPages s.used slot with
    | some true, some (used, _) => some { s with used := used, allocated := s.allocated - 1 }
    | _, _ => none
  else none

/-- `memset(p, b, n)`. -/
def fill (mem : Nat → Nat) (p n b : Nat) : Nat → Nat := fun a => if p ≤ a ∧ a < p + n then b else mem a

inductive Out where
  | slot (s : Option Nat)        -- a slot was reserved, or none is available
  | ptr (p : Option Nat)         -- the result of `Allocate`
  | cont                         -- the call goes on
  | done                         -- the call returned
  | doubleFree | overflow | corrupted | fault   -- the process is stopped with a report
  deriving Repr, DecidableEq

/-- The rest of `Allocate` for the `i`-th one in progress, lines 172-216; `ok`: did `mprotect` succeed (the `TC_ASSERT` at
line 183 is a message of debug builds). -/
def allocate (c : Cfg) (s : S) (i : Nat) (ok : Bool) : Option (S × Out) :=
  match s.allocs[i]? with
  | none => none
  | some (slot, size, al) =>
    if size ≤ c.ps ∧ al ≤ c.ps then
      match c.slotAddr slot with
      | none => none
      | some page =>
        let s1 := { s with allocs := s.allocs.eraseIdx i }
        if size = 0 then
          if (s.data slot).overflow then none
          else if al = 0 ∨ page % al = 0 then
            some ({ s1 with data := upd s.data slot ⟨0, page, 0, false⟩ }, .ptr (some page))
          else none
        else if ok then
          let (p, padding) := rightAlign c slot page size al
          if (s.data slot).overflow then none
          else if al = 0 ∨ p % al = 0 then
            some ({ s1 with data := upd s.data slot ⟨size, p, 0, false⟩, acc := upd s.acc slot true,
                            mem := fill s.mem (p + size) (min padding magicSize) (magic slot) }, .ptr (some p))
          else none
        else
          match freeSlot c s1 slot with
          | none => none
          | some s2 => some (s2, .ptr none)
    else none

/-- The start of `Deallocate`, lines 229-239. -/
def dealloc (c : Cfg) (s : S) (ptr : Nat) : Option (S × Out) :=
  if c.mine ptr then
    match c.addrSlot (c.pageAddr ptr) with
    | none => none
    | some slot =>
      let d := s.data slot
      let s1 := { s with data := upd s.data slot { d with count := d.count + 1 } }
      if d.count ≠ 0 then some (s1, .doubleFree)
      else some ({ s1 with frees := s.frees ++ [(slot, ptr)] }, .cont)
  else none

/-- `WriteOverflowOccurred`, lines 534-545. -/
def overflowed (c : Cfg) (s : S) (slot page : Nat) : Bool :=
  if rightAligned slot then
    let fin := (s.data slot).start + (s.data slot).size
    (List.range' fin (min (page + c.ps) (fin + magicSize) - fin)).any fun a => s.mem a != magic slot
  else false

/-- The middle of `Deallocate` for the `i`-th one in progress, lines 250-281. -/
def protect (c : Cfg) (s : S) (i : Nat) : Option (S × Out) :=
  match s.frees[i]? with
  | none => none
  | some (slot, ptr) =>
    match c.slotAddr slot with
    | none => none
    | some page =>
      let d := s.data slot
      let over := decide (0 < d.size) && overflowed c s slot page
      let s1 := { s with frees := s.frees.eraseIdx i, acc := if d.size > 0 then upd s.acc slot false else s.acc,
                         data := upd s.data slot { d with overflow := over || d.overflow } }
      if d.size > 0 ∧ (over || d.overflow) = true then some (s1, .overflow)
      else if d.start ≠ ptr then some (s1, .corrupted)
      else some ({ s1 with backs := s.backs ++ [slot] }, .cont)

/-- The end of `Deallocate` for the `i`-th one in progress, lines 283-284. -/
def giveBack (c : Cfg) (s : S) (i : Nat) : Option (S × Out) :=
  match s.backs[i]? with
  | none => none
  | some slot =>
    match freeSlot c { s with backs := s.backs.eraseIdx i } slot with
    | none => none
    | some s1 => some (s1, .done)

/-- Is the byte at `addr` accessible? -/
def accessible (c : Cfg) (s : S) (addr : Nat) : Bool :=
  match c.addrSlot (c.pageAddr addr) with
  | some slot => s.acc slot
  | none => false

/-- A store by the program. -/
def store (c : Cfg) (s : S) (addr b : Nat) : S × Out :=
  if accessible c s addr then ({ s with mem := upd s.mem addr b }, .done) else (s, .fault)

inductive Ev where
  | reserve (size al r : Nat)
  | allocate (i : Nat) (ok : Bool)
  | dealloc (ptr : Nat)
  | protect (i : Nat)
  | giveBack (i : Nat)
  | store (addr b : Nat)
  deriving Repr, DecidableEq

def step (c : Cfg) (s : S) : Ev → Option (S × Out)
  | .reserve size al r => (reserve c s size al r).map fun x => (x.1, .slot x.2)
  | .allocate i ok => allocate c s i ok
  | .dealloc p => dealloc c s p
  | .protect i => protect c s i
  | .giveBack i => giveBack c s i
  | .store a b => some (store c s a b)

/-- `GuardedAllocationsErrorType`, guarded_allocations.h. -/
inductive ErrorType where
  | doubleFree | overflowOnDealloc | useAfterFree | underflow | overflow | unknown
  deriving Repr, DecidableEq

/-- `GetErrorType`, lines 547-567. -/
def errorType (d : Meta) (addr : Nat) : ErrorType :=
  if d.start = 0 then .unknown
  else if d.count ≥ 2 then .doubleFree
  else if d.overflow then .overflowOnDealloc
  else if d.count = 1 then .useAfterFree
  else if addr < d.start then .underflow
  else if addr ≥ d.start + d.size then .overflow
  else .unknown

/-- `GetStackTraces`, lines 303-311: the slot reported for an access at `addr`, and the kind of error. -/
def report (c : Cfg) (s : S) (addr : Nat) : Option (Nat × ErrorType) :=
  if c.mine addr then
    match c.nearestSlot addr with
    | none => none
    | some slot => some (slot, errorType (s.data slot) addr)
  else none

/-- `GetRequestedSize`, lines 287-292. -/
def requestedSize (c : Cfg) (s : S) (ptr : Nat) : Option Nat :=
  if c.mine ptr then (c.addrSlot (c.pageAddr ptr)).map fun slot => (s.data slot).size else none

/-- `PointerIsCorrectlyAligned`, guarded_page_allocator.h:174-179. -/
def correctlyAligned (c : Cfg) (s : S) (ptr : Nat) : Option Bool :=
  (c.nearestSlot ptr).map fun slot => (s.data slot).start = ptr

/-- The decision of `TrySample`, lines 99-160: may this allocation be guarded?  `interval` and `profile` are the two
sampling intervals, `guarded` and `sampled` the counts so far, `covered` the answer of the stack-trace filter. -/
inductive Verdict where
  | tooLarge | disabled | rateLimited | filtered | tryIt
  deriving Repr, DecidableEq

def verdict (numPages : Nat) (interval profile : Int) (guarded sampled allocated limit r : Nat) (covered : Bool) : Verdict :=
  if numPages > 1 then .tooLarge
  else if interval < 0 then .disabled
  else if interval > 0 ∧ guarded > 0 then
    if interval * 10 > ((sampled * 10 / guarded : Nat) : Int) * profile then .rateLimited
    else if covered ∧ r % 50 ≤ allocated * 100 / limit then .filtered
    else .tryIt
  else .tryIt

end Verif.Guarded
