/-!
Model of the allocator of the allocator's own data: /repo/tcmalloc/arena.h, arena.cc and metadata_object_allocator.h.

The free list of blocks and the free list of objects are chains of pointers in memory; memory is part of the model, and
the clients may write anything into what they were given (event `write`).  One object allocator is modelled; the others,
and the other clients of the arena, are clients that allocate and write (events `alloc` and `write`).

Granularity.  Everything is under `arena_lock_` or `metadata_lock_`, so that calls are atomic.
Simplifications: memory is a map from addresses of aligned words; `Back` (arena.cc:117-120) has no effect on addresses;
constructors and destructors of the objects are client writes.  `none` stands for a failed assertion or a wrap-around.
-/
namespace Verif.Arena

/-- `kPageSize` is 2^`pageShift`; `sizeof(Span)`; size and alignment (2^`oalign`) of the objects. -/
structure Cfg where
  pageShift : Nat
  spanSize : Nat
  osize : Nat
  oalign : Nat

/-- arena.h:102. -/
def kAllocIncrement : Nat := 128 * 1024
/-- arena.h:104. -/
def kMaxFreelistBlocks : Nat := 100
/-- `sizeof(Block)`, arena.h:90-93. -/
def sizeofBlock : Nat := 16

/-- `Arena`, arena.h:106-128, and memory. -/
structure Arena where
  area : Nat
  avail : Nat
  freelist : Nat
  mem : Nat → Nat
  allocated : Nat
  unavailable : Nat
  nonresident : Nat
  freelistBytes : Nat
  blocks : Nat
  freelistBlocks : Nat

/-- Write a word. -/
def upd (m : Nat → Nat) (a v : Nat) : Nat → Nat := fun x => if x = a then v else m x

/-- `AlignmentBytes`, arena.cc:38-41. -/
def pad (area align : Nat) : Nat := if area % align ≠ 0 then align - area % align else 0

/-- `StashRemainingFreeArea`, arena.cc:44-64. -/
def Arena.stash (cfg : Cfg) (a : Arena) : Arena :=
  let ab := pad a.area 8
  let a :=
    if a.freelistBlocks < kMaxFreelistBlocks ∧ ab + max cfg.spanSize sizeofBlock ≤ a.avail then
      let b := a.area + ab
      { a with
        unavailable := a.unavailable + ab
        mem := upd (upd a.mem b a.freelist) (b + 8) (a.avail - ab)
        freelist := b
        freelistBlocks := a.freelistBlocks + 1
        freelistBytes := a.freelistBytes + (a.avail - ab) }
    else { a with unavailable := a.unavailable + a.avail }
  { a with area := 0, avail := 0 }

/-- The search of `TryPopFromFreelist`, arena.cc:67-77: the block found and the one before it (0 if it is the first).
`none`: more than `fuel` blocks. -/
def search (mem : Nat → Nat) (bytes align : Nat) : Nat → Nat → Nat → Option (Option (Nat × Nat))
  | 0, _, _ => none
  | fuel + 1, cur, prev =>
    if cur = 0 then some none
    else if mem (cur + 8) < pad cur align + bytes then search mem bytes align fuel (mem cur) cur
    else some (some (cur, prev))

/-- `TryPopFromFreelist`, arena.cc:66-90. -/
def Arena.tryPop (a : Arena) (bytes align : Nat) : Option (Arena × Option Nat) :=
  match search a.mem bytes align (kMaxFreelistBlocks + 1) a.freelist 0 with
  | none => none
  | some none => some (a, none)
  | some (some (cur, prev)) =>
    if a.freelistBlocks = 0 ∨ a.freelistBytes < a.mem (cur + 8) then none
    else
      some ({ a with
        freelist := if prev = 0 then a.mem cur else a.freelist
        mem := if prev = 0 then a.mem else upd a.mem prev (a.mem cur)
        freelistBlocks := a.freelistBlocks - 1
        freelistBytes := a.freelistBytes - a.mem (cur + 8) }, some cur)

/-- How an allocation ends: with a pointer, or with the process (arena.cc:110-115). -/
inductive Res where
  | ptr (p : Nat)
  | oom
deriving DecidableEq, Repr

/-- `AllocSlow`, arena.cc:92-125.  `sys`: what the system allocator answers if asked.  The flag: whether it was asked. -/
def Arena.allocSlow (cfg : Cfg) (a : Arena) (bytes align : Nat) (sys : Option (Nat × Nat)) :
    Option (Option (Arena × Bool)) :=
  match (a.stash cfg).tryPop bytes align with
  | none => none
  | some (a, some b) => some (some ({ a with area := b, avail := a.mem (b + 8) }, false))
  | some (a, none) =>
    match sys with
    | none => some none
    | some (p, n) => some (some ({ a with area := p, avail := n, blocks := (a.blocks + 1) % 65536 }, true))

/-- `Alloc` from line 139 on (arena.cc): the free area is used. -/
def Arena.carve (a : Arena) (bytes align : Nat) : Option (Arena × Nat) :=
  let ab := pad a.area align
  if a.avail < ab + bytes ∨ (a.area + ab) % align ≠ 0 then none
  else
    some ({ a with
      area := a.area + ab + bytes
      avail := a.avail - ab - bytes
      allocated := a.allocated + ab + bytes }, a.area + ab)

/-- `Alloc`, arena.cc:127-152.  The flag: whether the system allocator was asked. -/
def Arena.alloc (cfg : Cfg) (a : Arena) (bytes align : Nat) (sys : Option (Nat × Nat)) : Option (Arena × Res × Bool) :=
  -- line 129; the sum in lines 134, 139 and 73 does not wrap around
  if align = 0 ∨ 2 ^ 64 ≤ bytes + align then none
  else if a.avail < pad a.area align + bytes then
    match a.allocSlow cfg bytes align sys with
    | none => none
    | some none => some (a, .oom, true)
    | some (some (a, asked)) => (a.carve bytes align).map fun x => (x.1, .ptr x.2, asked)
  else (a.carve bytes align).map fun x => (x.1, .ptr x.2, false)

/-- What `AllocSlow` asks the system for, arena.cc:106-108: size and alignment. -/
def askSize (bytes : Nat) : Nat := if kAllocIncrement < bytes then bytes else kAllocIncrement
def askAlign (cfg : Cfg) (align : Nat) : Nat := max (2 ^ cfg.pageShift) align

/-- `UpdateAllocatedAndNonresident`, arena.h:67-73. -/
def Arena.update (a : Arena) (d e : Int) : Option Arena :=
  if (a.allocated : Int) + d < 0 ∨ (a.nonresident : Int) + e < 0 then none
  else some { a with allocated := ((a.allocated : Int) + d).toNat, nonresident := ((a.nonresident : Int) + e).toNat }

/-- `stats`, arena.h:76-87. -/
structure Stats where
  allocated : Nat
  unallocated : Nat
  unavailable : Nat
  nonresident : Nat
  blocks : Nat
  freelistBlocks : Nat
deriving DecidableEq, Repr

def Arena.stats (a : Arena) : Stats :=
  ⟨a.allocated, a.avail + a.freelistBytes, a.unavailable, a.nonresident, a.blocks, a.freelistBlocks⟩

/-- The state: arena, one object allocator (`free_list_`, `stats_`); what the system gave, what clients of the arena
and of the object allocator were given, and by how much clients corrected the count of allocated bytes. -/
structure W where
  a : Arena
  head : Nat
  inUse : Nat
  total : Nat
  sys : List (Nat × Nat)
  raw : List (Nat × Nat)
  use : List Nat
  adj : Int

inductive Ev where
  | alloc (bytes align : Nat) (sys : Option (Nat × Nat))
  | new (sys : Option (Nat × Nat))
  | delete (p : Nat)
  | update (d e : Int)
  /-- clients write: memory afterwards -/
  | write (mem : Nat → Nat)

/-- What an event shows: a pointer, the end of the process, nothing; and whether the system was asked. -/
structure Out where
  res : Option Res
  asked : Bool
deriving DecidableEq, Repr

/-- What the system gave. -/
def gave (sys : Option (Nat × Nat)) (asked : Bool) : List (Nat × Nat) := if asked then sys.toList else []

/-- One event.  `new`: `LockAndAllocMemory`, metadata_object_allocator.h:86-109 (the size is that of the type).
`delete`: `LockAndDeleteMemory`, 111-123. -/
def step (cfg : Cfg) (w : W) : Ev → Option (W × Out)
  | .alloc bytes align sys =>
    match w.a.alloc cfg bytes align sys with
    | none => none
    | some (a, .ptr p, asked) =>
      some ({ w with a := a, sys := gave sys asked ++ w.sys, raw := (p, bytes) :: w.raw }, ⟨some (.ptr p), asked⟩)
    | some (_, .oom, asked) => some (w, ⟨some .oom, asked⟩)
  | .new sys =>
    if w.head = 0 then
      match w.a.alloc cfg cfg.osize (2 ^ cfg.oalign) sys with
      | none => none
      | some (a, .ptr p, asked) =>
        some ({ w with a := a, inUse := w.inUse + 1, total := w.total + 1, sys := gave sys asked ++ w.sys, use := p :: w.use },
          ⟨some (.ptr p), asked⟩)
      | some (_, .oom, asked) => some (w, ⟨some .oom, asked⟩)
    else
      some ({ w with head := w.a.mem w.head, inUse := w.inUse + 1, use := w.head :: w.use }, ⟨some (.ptr w.head), false⟩)
  | .delete p =>
    if w.inUse = 0 then none
    else
      some ({ w with
        a := { w.a with mem := upd w.a.mem p w.head }
        head := p
        inUse := w.inUse - 1
        use := w.use.erase p }, ⟨none, false⟩)
  | .update d e => (w.a.update d e).map fun a => ({ w with a := a, adj := w.adj + d }, ⟨none, false⟩)
  | .write mem => some ({ w with a := { w.a with mem := mem } }, ⟨none, false⟩)

/-- The initial state; memory is arbitrary. -/
def W.init (mem : Nat → Nat) : W := ⟨⟨0, 0, 0, mem, 0, 0, 0, 0, 0, 0⟩, 0, 0, 0, [], [], [], 0⟩

end Verif.Arena
