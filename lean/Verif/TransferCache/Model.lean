import Verif.CentralFreeList.Spec
/-!
Model of /repo/tcmalloc/transfer_cache_internals.h and transfer_cache.h: the transfer cache of a size class,
its shards, and the resizing of the caches of all classes.

Concurrency.  Each section under `lock_` is one function.  The unlocked reads of `slot_info_` that decide
whether to take the lock at all (transfer_cache_internals.h:156, 188) may be arbitrarily old: their outcome is
the free argument `hint`.  `try_lock` may fail at any time.  Objects on their way to the lower layer, after
the lock was dropped, are in the caller's local buffer and appear in the outputs.

Not modelled: the miss counters other than as the arbitrary `misses` that `ResizeCaches` reads; printing.
`none` stands for a failed assertion or an access out of bounds.
-/
namespace Verif.TransferCache

/-- common.h:208. -/
def kMaxObjectsToMove : Nat := 128

/-- The fields of `TransferCache` (transfer_cache_internals.h:372-415): `slot_info_`, `max_capacity_`,
`low_water_mark_`, the array `slots_` (of `max` entries) and the hit counters. -/
structure TC where
  used : Nat
  cap : Nat
  max : Nat
  low : Nat
  slots : Nat → Nat
  insertHits : Nat
  removeHits : Nat
  removeObjHits : Nat

/-- The constructor, transfer_cache_internals.h:96-109; the array is not initialised. -/
def TC.new (cap max : Nat) (slots : Nat → Nat) : TC := ⟨0, cap, max, 0, slots, 0, 0, 0⟩

/-- `CapacityNeeded`, transfer_cache_internals.h:114-145: initial and maximal capacity.  `n` is
`num_objects_to_move` (`none`: it is 0). -/
def capacityNeeded (cls bytes n : Nat) : Option (Nat × Nat) :=
  if cls = 0 ∨ bytes = 0 then some (0, 0)
  else if n = 0 then none
  else
    let maxCap := min (64 * n) (max n (1024 * 1024 / (bytes * n) * n))
    some (min (16 * n) maxCap, maxCap)

/-- `LargeCacheCapacity`, transfer_cache.h:359-364. -/
def largeCapacity (use : Bool) (bytes : Nat) : Option (Nat × Nat) :=
  if use then if bytes = 0 then none else some (12 * 2 ^ 20 / bytes, 12 * 2 ^ 20 / bytes) else some (0, 0)

/-- `active_for_class_`, transfer_cache.h:143-160. -/
def activeForClass (largeOnly generic : Bool) (shards bytes : Nat) : Bool :=
  (largeOnly || (generic && decide (3 ≤ shards))) && decide ((if generic then 0 else 4096) ≤ bytes)

/-- `SetSlotInfo`, transfer_cache_internals.h:361-366. -/
def TC.setInfo (t : TC) (used cap : Nat) : Option TC :=
  if used ≤ cap ∧ cap ≤ t.max then some { t with used := used, cap := cap } else none

/-- `memcpy` into the slots from index `i` on. -/
def TC.store (t : TC) (i : Nat) (objs : List Nat) : Option TC :=
  if i + objs.length ≤ t.max then
    some { t with slots := fun a => if i ≤ a ∧ a < i + objs.length then objs.getD (a - i) 0 else t.slots a }
  else none

/-- `memcpy` of `n` entries from index `i` on. -/
def TC.load (t : TC) (i n : Nat) : Option (List Nat) :=
  if i + n ≤ t.max then some ((List.range n).map fun j => t.slots (i + j)) else none

/-- `InsertRange`, transfer_cache_internals.h:152-180: the cache afterwards and what is left for the lower
layer. -/
def TC.insert (t : TC) (batch : List Nat) (hint : Bool) : Option (TC × List Nat) :=
  if batch.length = 0 ∨ kMaxObjectsToMove < batch.length then none
  else if hint then
    let got := min batch.length (t.cap - t.used)
    if 0 < got then
      (t.setInfo (t.used + got) t.cap).bind fun t1 =>
        (t1.store t.used (batch.take got)).map fun t2 =>
          ({ t2 with insertHits := t2.insertHits + 1 }, batch.drop got)
    else some (t, batch)
  else some (t, batch)

/-- `RemoveRange`, transfer_cache_internals.h:184-209: the objects, or nothing when the lower layer is to
be asked. -/
def TC.remove (t : TC) (n : Nat) (hint : Bool) : Option (TC × Option (List Nat)) :=
  if n = 0 ∨ kMaxObjectsToMove < n then none
  else if hint then
    let got := min n t.used
    if got ≠ 0 then
      (t.setInfo (t.used - got) t.cap).bind fun t1 =>
        (t1.load (t.used - got) got).map fun objs =>
          ({ t1 with removeHits := t1.removeHits + 1, removeObjHits := t1.removeObjHits + got,
                     low := min t1.low (t.used - got) }, some objs)
    else some (t, none)
  else some (t, none)

/-- One turn of the loop of `TryPlunder`, transfer_cache_internals.h:225-242, from having the lock to
dropping it: `none` inside when there is nothing more to move, else the buffer and what remains to be
returned. -/
def TC.plunderTurn (B : Nat) (t : TC) (toReturn : Nat) : Option (TC × Option (List Nat × Nat)) :=
  let num := min B (min t.used toReturn)
  if num = 0 then some (t, none)
  else if kMaxObjectsToMove < num then none
  else
    (t.load (t.used - num) num).bind fun buf =>
      ({ t with low := t.used - num }.setInfo (t.used - num) t.cap).map fun t1 =>
        (t1, some (buf, toReturn - num))

/-- `TryPlunder` up to the first drop of the lock, transfer_cache_internals.h:214-242, the `try_lock`
having succeeded. -/
def TC.plunder (B : Nat) (t : TC) : Option (TC × Option (List Nat × Nat)) :=
  if t.max = 0 then some (t, none)
  else if t.used < t.low then none
  else { t with low := t.used }.plunderTurn B t.low

/-- `IncreaseCacheCapacity`, transfer_cache_internals.h:281-292. -/
def TC.grow (B : Nat) (t : TC) : Option (TC × Bool) :=
  if t.max < t.cap + B then some (t, false) else (t.setInfo t.used (t.cap + B)).map fun t => (t, true)

/-- `CanIncreaseCapacity`, transfer_cache_internals.h:295-299. -/
def TC.canGrow (B : Nat) (t : TC) : Bool := decide ((B : Int) ≤ (t.max : Int) - (t.cap : Int))

/-- `HasSpareCapacity`, transfer_cache_internals.h:303-307. -/
def TC.hasSpare (B : Nat) (t : TC) : Bool := decide ((B : Int) ≤ (t.cap : Int) - (t.used : Int))

/-- `ShrinkCache`, transfer_cache_internals.h:312-345: the objects are passed to the lower layer. -/
def TC.shrink (B : Nat) (t : TC) : Option (TC × Bool × List Nat) :=
  if t.cap = 0 then some (t, false, [])
  else if t.cap ≤ B then some (t, false, [])
  else
    let N := min B t.cap
    let unused := t.cap - t.used
    if N ≤ unused then (t.setInfo t.used (t.cap - N)).map fun t => (t, true, [])
    else
      let num := N - unused
      if kMaxObjectsToMove < num ∨ t.used < num then none
      else
        (t.setInfo (t.used - num) (t.cap - N)).bind fun t1 =>
          (t1.load (t.used - num) num).map fun objs =>
            ({ t1 with low := min t1.low (t.used - num) }, true, objs)

/-! ### Resizing across classes -/

/-- `MissInfo`, transfer_cache_internals.h:424-427. -/
structure MissInfo where
  cls : Nat
  misses : Nat
deriving DecidableEq

/-- The comparison of transfer_cache_internals.h:441-446. -/
def MissInfo.before (a b : MissInfo) : Bool :=
  if a.misses = b.misses then decide (a.cls < b.cls) else decide (a.misses > b.misses)

def insertSorted (a : MissInfo) : List MissInfo → List MissInfo
  | [] => [a]
  | b :: l => if b.before a then b :: insertSorted a l else a :: b :: l

/-- `std::sort` with that comparison, transfer_cache_internals.h:440-446 (insertion sort: the order is
total on distinct classes, so every correct sort gives this result). -/
def sortMisses : List MissInfo → List MissInfo
  | [] => []
  | a :: l => insertSorted a (sortMisses l)

/-- What the resizer sees of the caches: batch size and maximal capacity of each class. -/
structure Sizes where
  n : Nat → Nat
  max : Nat → Nat

def updc (f : Nat → Nat) (c v : Nat) : Nat → Nat := fun x => if x = c then v else f x

/-- The scan for a cache to shrink, transfer_cache_internals.h:462-468; `ShrinkCache` succeeds exactly when
the capacity exceeds one batch (`shrink_cap`). -/
def shrinkScan (z : Sizes) (ms : List MissInfo) (g : Nat) : Nat → (Nat → Nat) → Nat × (Nat → Nat) × Bool
  | 0, cap => (0, cap, false)
  | s + 1, cap =>
    if g < s + 1 then
      match ms[s + 1]? with
      | none => (s + 1, cap, false)
      | some m =>
        if z.n m.cls < cap m.cls then (s + 1, updc cap m.cls (cap m.cls - z.n m.cls), true)
        else shrinkScan z ms g s cap
    else (s + 1, cap, false)

/-- The scan for a cache to grow, transfer_cache_internals.h:470-476 (`fuel` is `s - g`). -/
def growScan (z : Sizes) (ms : List MissInfo) : Nat → Nat → (Nat → Nat) → Nat × (Nat → Nat) × Bool
  | 0, g, cap => (g, cap, false)
  | fuel + 1, g, cap =>
    match ms[g]? with
    | none => (g, cap, false)
    | some m =>
      if cap m.cls + z.n m.cls ≤ z.max m.cls then (g, updc cap m.cls (cap m.cls + z.n m.cls), true)
      else growScan z ms fuel (g + 1) cap

/-- The main loop, transfer_cache_internals.h:451-477; `fuel` only makes the recursion structural. -/
def resizeLoop (z : Sizes) (kMax : Nat) (ms : List MissInfo) :
    Nat → Nat → Nat → (Nat → Nat) → Nat → Nat → Option ((Nat → Nat) × Nat × Nat)
  | 0, g, s, cap, grown, shrunk => if g < s then none else some (cap, grown, shrunk)
  | fuel + 1, g, s, cap, grown, shrunk =>
    if g < s then
      if grown = kMax then some (cap, grown, shrunk)
      else
        match ms[g]? with
        | none => none
        | some m =>
          if z.max m.cls < cap m.cls + z.n m.cls then resizeLoop z kMax ms fuel (g + 1) s cap grown shrunk
          else if m.misses = 0 then some (cap, grown, shrunk)
          else
            match shrinkScan z ms g s cap with
            | (s1, cap1, b1) =>
              match growScan z ms (s1 - g) g cap1 with
              | (g1, cap2, b2) =>
                resizeLoop z kMax ms fuel (g1 + 1) (s1 - 1) cap2 (grown + if b2 then 1 else 0)
                  (shrunk + if b1 then 1 else 0)
    else some (cap, grown, shrunk)

/-- The last loop, transfer_cache_internals.h:483-491: `none` if it would spin for ever. -/
def giveBack (z : Sizes) (ms : List MissInfo) : Nat → (Nat → Nat) → Option (Nat → Nat)
  | 0, cap => some cap
  | missing + 1, cap =>
    match growScan z ms ms.length 0 cap with
    | (_, cap1, true) => giveBack z ms missing cap1
    | (_, _, false) => none

/-- `ResizeCaches`, transfer_cache_internals.h:418-492: the capacities afterwards; `misses` are the misses
collected for the classes in question. -/
def resize (z : Sizes) (kMax : Nat) (misses : List MissInfo) (cap : Nat → Nat) : Option (Nat → Nat) :=
  let ms := sortMisses misses
  match resizeLoop z kMax ms ms.length 0 (ms.length - 1) cap 0 0 with
  | none => none
  | some (cap, grown, shrunk) => giveBack z ms (shrunk - grown) cap

end Verif.TransferCache
