import Verif.Frontend.HistoryProps
/-!
The checks of sized frees in builds with assertions: `CorrectSize` and `CorrectAlignment` (tcmalloc.cc:1000-1108), with the
range of sizes they report.
-/
namespace Verif.Frontend
open Verif.SizeMap Verif.MemoryTag

/-- What a check comes to: nothing wrong; a report of a wrong size, with the range of sizes it calls right; a report of a
misaligned pointer, with the alignment expected; a failed assertion inside the check; an access outside a table. -/
inductive Verdict | fine | mismatched (lo hi : Nat) | misaligned (align : Nat) | assertFails | ub
  deriving Repr, DecidableEq

/-- `class_to_size_range`, sizemap.h:309-324. -/
def classToSizeRange (m : Maps) (c : Nat) : Option (Nat × Nat) :=
  if c = 0 then some (0, 0)
  else match m.classToSize[c]?, m.classToSize[c - 1]? with
    | some hi, some prev => some (if prev + 1 > hi then 0 else prev + 1, hi)
    | _, _ => none

/-- The range of sizes of a block without a class, tcmalloc.cc:1020-1035.  (`bytes_in_span` is at least a page.) -/
def pageRange (env : Env) (k : Kind) (b : Block) : Nat × Nat :=
  (if k.align > env.cfg.pageSize ∧ b.spanBytes = env.cfg.pageSize then 0 else b.spanBytes - env.cfg.pageSize + 1, b.spanBytes)

/-- `minimum_size` and `maximum_size`, tcmalloc.cc:1010-1036, for a live block (the page map knows its span). -/
def allowedSizes (env : Env) (k : Kind) (b : Block) : Option (Nat × Nat) :=
  if b.cls ≠ 0 then classToSizeRange env.maps b.cls
  else match b.sample with
    | some s => if s.guarded then some (s.requested, s.requested) else some (pageRange env k b)
    | none => some (pageRange env k b)

/-- `policy.InSamePartitionAs(ptr).AccessAs(access_hint)`, tcmalloc.cc:1040-1046. -/
def checkPol (env : Env) (p : Pol) (b : Block) : Pol :=
  ({ p with cold := decide (getMemoryTag b.addr = Tag.cold.val) } : Pol).inPartition env.cfg (partitionFromPointer env.cfg b.addr)

/-- The comparison, tcmalloc.cc:1038 and 1047-1073: `r` is what the size map says of the size passed. -/
def judge (env : Env) (k : Kind) (size : Nat) (b : Block) (r : Option Res) : Verdict :=
  match allowedSizes env k b with
  | none => .ub
  | some (lo, hi) =>
    if hi < lo then .assertFails
    else match r with
      | none => .ub
      | some (.small c) =>
        if c = b.cls then (if 0 < b.cls then .fine else .assertFails) else .mismatched lo hi
      | some .large =>
        if b.cls = 0 then (if lo ≤ size ∧ size ≤ hi then .fine else .mismatched lo hi) else .mismatched lo hi

/-- `CorrectSize`, tcmalloc.cc:1002-1073. -/
def correctSize (env : Env) (p : Pol) (size : Nat) (b : Block) : Verdict :=
  judge env p.kind size b (getSizeClass env.cfg env.maps (checkPol env p b).sm size)

/-- Where the sized frees call `CorrectSize`: not for sampled memory, whose records are checked instead
(tcmalloc.cc:843-869, 907-940). -/
def sizeCheck (env : Env) (p : Pol) (size : Nat) (b : Block) : Verdict :=
  match ptrKind b.addr with
  | .fastNormal => correctSize env { p with cold := false } size b
  | .null => .fine
  | .cold => correctSize env { p with cold := true } size b
  | .irregular =>
    if isSampledMemory b.addr then .fine
    else if b.addr &&& kBadHighMask ≠ 0 then .fine
    else correctSize env p size b

/-- The lowest set bit, `size & -size` (tcmalloc.cc:1094). -/
def lowBit (n : Nat) : Nat := if n = 0 then 0 else if n % 2 = 1 then 1 else 2 * lowBit (n / 2)
termination_by n
decreasing_by omega

/-- `CorrectAlignment`, tcmalloc.cc:1078-1108, called first by every sized free (897).  `IsAlignedTo` masks with the
alignment less one; for powers of two that is the remainder. -/
def alignCheck (env : Env) (align : Nat) (b : Block) : Verdict :=
  let want : Option Nat :=
    if b.cls ≠ 0 then (env.maps.classToSize[b.cls]?).map fun sz => max align (min (lowBit sz) env.cfg.pageSize)
    else if b.guarded then some align else some (max align env.cfg.pageSize)
  match want with
  | none => .ub
  | some a => if b.addr % a = 0 then .fine else .misaligned a

end Verif.Frontend
