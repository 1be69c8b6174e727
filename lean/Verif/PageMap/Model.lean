/-
Model of the address-to-descriptor map: /repo/tcmalloc/pagemap.h (`PageMap3`, `PageMap`),
/repo/tcmalloc/pagemap.cc.

Arrays are functions on their index; every access to `root_` is bounds-checked by the model (`none` =
out-of-range access or null dereference, i.e. undefined behaviour in the code).  `leafs[i2]` and the leaf
arrays are indexed with masked values, so they cannot be out of range.  Pointers are numbers, null is 0.
-/
namespace Verif.PageMap

/-- pagemap.h:81-107: `BITS` = kAddressBits - kPageShift. -/
structure Cfg where
  bits : Nat
  pageShift : Nat
  deriving Repr, DecidableEq

/-- `kLeafBits`, pagemap.h:88. -/
def Cfg.leafBits (c : Cfg) : Nat := (c.bits + 2) / 3
/-- `kMidBits`, pagemap.h:90. -/
def Cfg.midBits (c : Cfg) : Nat := (c.bits + 2) / 3
/-- `kRootBits`, pagemap.h:92. -/
def Cfg.rootBits (c : Cfg) : Nat := c.bits - c.leafBits - c.midBits
/-- `kRootLength`, pagemap.h:96. -/
def Cfg.rootLength (c : Cfg) : Nat := 1 <<< c.rootBits
/-- `kLeafHugeBits`, pagemap.h:101-102 (`kHugePageShift` = 21). -/
def Cfg.leafHugeBits (c : Cfg) : Nat := c.leafBits + c.pageShift - 21

/-- `Leaf`, pagemap.h:105-122. -/
structure Leaf where
  sizeclass : Nat → Nat
  packed : Nat → Nat
  hugepage : Nat → Nat

/-- `memset(leaf, 0, sizeof(*leaf))`, pagemap.h:321. -/
def Leaf.zero : Leaf := ⟨fun _ => 0, fun _ => 0, fun _ => 0⟩

/-- `Node`, pagemap.h:124-127. -/
abbrev Node := Nat → Option Leaf

/-- `PageMap3`; `allocs` counts the metadata allocations made so far (it replaces `bytes_used_`). -/
structure Map where
  root : Nat → Option Node
  allocs : Nat

/-- The constructor, pagemap.h:134. -/
def Map.init : Map := ⟨fun _ => none, 0⟩

def upd {α : Type} (f : Nat → α) (i : Nat) (v : α) : Nat → α := fun j => if j = i then v else f j

/-- `PackedSpanAndSizeclass::set`, pagemap.h:60-63 (64-bit). -/
def pack (span sc : Nat) : Nat := ((sc <<< 48) ||| span) % 2 ^ 64
/-- `PackedSpanAndSizeclass::span`, pagemap.h:65-67. -/
def unpackSpan (v : Nat) : Nat := v &&& (2 ^ 48 - 1)
/-- `PackedSpanAndSizeclass::sizeclass`, pagemap.h:68-70. -/
def unpackClass (v : Nat) : Nat := v >>> 48

def i1 (c : Cfg) (k : Nat) : Nat := k >>> (c.leafBits + c.midBits)
def i2 (c : Cfg) (k : Nat) : Nat := (k >>> c.leafBits) &&& (2 ^ c.midBits - 1)
def i3 (c : Cfg) (k : Nat) : Nat := k &&& (2 ^ c.leafBits - 1)

/-- `root_[i]`. -/
def rootAt (c : Cfg) (m : Map) (i : Nat) : Option (Option Node) :=
  if i < c.rootLength then some (m.root i) else none

/-- `root_[i1]->leafs[i2]` with both dereferences required to succeed. -/
def leafOf (c : Cfg) (m : Map) (k : Nat) : Option Leaf :=
  match rootAt c m (i1 c k) with
  | some (some node) => node (i2 c k)
  | _ => none

/-- Assignment through `root_[i1]->leafs[i2]->…`. -/
def modLeaf (c : Cfg) (m : Map) (k : Nat) (f : Leaf → Leaf) : Option Map :=
  match rootAt c m (i1 c k) with
  | some (some node) =>
    match node (i2 c k) with
    | some leaf => some { m with root := upd m.root (i1 c k) (some (upd node (i2 c k) (some (f leaf)))) }
    | none => none
  | _ => none

/-- `get`, pagemap.h:137-147. -/
def get (c : Cfg) (m : Map) (k : Nat) : Nat :=
  if k >>> c.bits > 0 then 0
  else
    match m.root (i1 c k) with
    | none => 0
    | some node =>
      match node (i2 c k) with
      | none => 0
      | some leaf => unpackSpan (leaf.packed (i3 c k))

/-- `get_existing_with_sizeclass<true>`, pagemap.h:176-205. -/
def getWithClass (c : Cfg) (m : Map) (k : Nat) : Nat × Nat :=
  if k >>> c.bits > 0 then (0, 0)
  else
    match m.root (i1 c k) with
    | none => (0, 0)
    | some node =>
      match node (i2 c k) with
      | none => (0, 0)
      | some leaf => (unpackSpan (leaf.packed (i3 c k)), unpackClass (leaf.packed (i3 c k)))

/-- `get_existing_with_sizeclass<false>`, pagemap.h:176-205. -/
def getExistingWithClass (c : Cfg) (m : Map) (k : Nat) : Option (Nat × Nat) :=
  match leafOf c m k with
  | none => none
  | some leaf => some (unpackSpan (leaf.packed (i3 c k)), unpackClass (leaf.packed (i3 c k)))

/-- `get_existing`, pagemap.h:210-219. -/
def getExisting (c : Cfg) (m : Map) (k : Nat) : Option Nat :=
  match leafOf c m k with
  | none => none
  | some leaf => some (unpackSpan (leaf.packed (i3 c k)))

/-- `sizeclass`, pagemap.h:223-236. -/
def sizeclass (c : Cfg) (m : Map) (k : Nat) : Nat :=
  if k >>> c.bits > 0 then 0
  else
    match m.root (i1 c k) with
    | none => 0
    | some node =>
      match node (i2 c k) with
      | none => 0
      | some leaf => leaf.sizeclass (i3 c k)

/-- `set`, pagemap.h:238-249. -/
def set (c : Cfg) (m : Map) (k s : Nat) : Option Map :=
  modLeaf c m k fun l => { l with packed := upd l.packed (i3 c k) (pack s 0) }

/-- `set_with_sizeclass`, pagemap.h:251-259. -/
def setWithClass (c : Cfg) (m : Map) (k s sc : Nat) : Option Map :=
  modLeaf c m k fun l =>
    { l with packed := upd l.packed (i3 c k) (pack s sc), sizeclass := upd l.sizeclass (i3 c k) sc }

/-- `clear_sizeclass`, pagemap.h:261-267. -/
def clearClass (c : Cfg) (m : Map) (k : Nat) : Option Map :=
  modLeaf c m k fun l => { l with sizeclass := upd l.sizeclass (i3 c k) 0 }

/-- `get_hugepage`, pagemap.h:269-279. -/
def getHuge (c : Cfg) (m : Map) (k : Nat) : Option Nat :=
  match leafOf c m k with
  | none => none
  | some leaf => some (leaf.hugepage (i3 c k >>> (c.leafBits - c.leafHugeBits)))

/-- `has_leaf`, pagemap.h:281-289. -/
def hasLeaf (c : Cfg) (m : Map) (k : Nat) : Bool :=
  if k >>> c.bits > 0 then false
  else if i1 c k ≥ c.rootLength then false
  else
    match m.root (i1 c k) with
    | none => false
    | some node => (node (i2 c k)).isSome

/-- `set_hugepage`, pagemap.h:291-297. -/
def setHuge (c : Cfg) (m : Map) (k v : Nat) : Option Map :=
  modLeaf c m k fun l =>
    { l with hugepage := upd l.hugepage (i3 c k >>> (c.leafBits - c.leafHugeBits)) v }

/-- The body of `Ensure`'s loop for one key, pagemap.h:301-324.  `al n` says whether the `n`-th metadata
allocation succeeds.  The flag is "go on". -/
def ensureKey (c : Cfg) (al : Nat → Bool) (m : Map) (key : Nat) : Map × Bool :=
  if i1 c key ≥ c.rootLength then (m, false)
  else
    match m.root (i1 c key) with
    | none =>
      if al m.allocs = false then ({ m with allocs := m.allocs + 1 }, false)
      else
        let m1 : Map := ⟨upd m.root (i1 c key) (some fun _ => none), m.allocs + 1⟩
        if al m1.allocs = false then ({ m1 with allocs := m1.allocs + 1 }, false)
        else (⟨upd m1.root (i1 c key) (some (upd (fun _ => none) (i2 c key) (some Leaf.zero))),
                m1.allocs + 1⟩, true)
    | some node =>
      match node (i2 c key) with
      | some _ => (m, true)
      | none =>
        if al m.allocs = false then ({ m with allocs := m.allocs + 1 }, false)
        else (⟨upd m.root (i1 c key) (some (upd node (i2 c key) (some Leaf.zero))), m.allocs + 1⟩, true)

/-- The loop of `Ensure`, pagemap.h:300-327, from `key` to `last` inclusive. -/
def ensureLoop (c : Cfg) (al : Nat → Bool) (m : Map) (key last : Nat) : Map × Bool :=
  if key ≤ last then
    match ensureKey c al m key with
    | (m', false) => (m', false)
    | (m', true) => ensureLoop c al m' (((key >>> c.leafBits) + 1) <<< c.leafBits) last
  else (m, true)
termination_by last + 1 - key
decreasing_by
  rw [Nat.shiftLeft_eq, Nat.shiftRight_eq_div_pow]
  have h1 : 0 < 2 ^ c.leafBits := Nat.pow_pos (by omega)
  have h2 := Nat.lt_div_mul_add h1 (a := key)
  rw [Nat.add_mul]; omega

/-- `Ensure`, pagemap.h:299-329: `start + n - 1` is 64-bit arithmetic. -/
def ensure (c : Cfg) (al : Nat → Bool) (m : Map) (start n : Nat) : Map × Bool :=
  ensureLoop c al m start ((start + n + 2 ^ 64 - 1) % 2 ^ 64)

/-- Innermost loop of `get_next_set_page`, pagemap.h:159-162 (`r` iterations left). -/
def scanLeaf (leaf : Leaf) : Nat → Nat → Option Nat
  | 0, _ => none
  | r + 1, j3 => if unpackSpan (leaf.packed j3) ≠ 0 then some j3 else scanLeaf leaf r (j3 + 1)

/-- Middle loop, pagemap.h:157-163: returns `(i2, i3)`. -/
def scanNode (c : Cfg) (node : Node) : Nat → Nat → Nat → Option (Nat × Nat)
  | 0, _, _ => none
  | r + 1, j2, j3 =>
    match node j2 with
    | none => scanNode c node r (j2 + 1) 0
    | some leaf =>
      match scanLeaf leaf (2 ^ c.leafBits - j3) j3 with
      | some j => some (j2, j)
      | none => scanNode c node r (j2 + 1) 0

/-- Outer loop, pagemap.h:155-164. -/
def scanRoot (c : Cfg) (m : Map) : Nat → Nat → Nat → Nat → Option Nat
  | 0, _, _, _ => none
  | r + 1, j1, j2, j3 =>
    match m.root j1 with
    | none => scanRoot c m r (j1 + 1) 0 0
    | some node =>
      match scanNode c node (2 ^ c.midBits - j2) j2 j3 with
      | some (a, b) => some ((j1 <<< (c.leafBits + c.midBits)) ||| (a <<< c.leafBits) ||| b)
      | none => scanRoot c m r (j1 + 1) 0 0

/-- `get_next_set_page`, pagemap.h:150-166. -/
def nextSet (c : Cfg) (m : Map) (k : Nat) : Option Nat :=
  scanRoot c m (c.rootLength - i1 c (k + 1)) (i1 c (k + 1)) (i2 c (k + 1)) (i3 c (k + 1))

/-- `RegisterSizeClass`'s loop, pagemap.cc:35-42, over the pages `p, p+1, …` (`n` of them). -/
def registerLoop (c : Cfg) (m : Map) (s sc : Nat) : Nat → Nat → Option Map
  | 0, _ => some m
  | n + 1, p =>
    match setWithClass c m p s sc with
    | none => none
    | some m' => registerLoop c m' s sc n (p + 1)

/-- `UnregisterSizeClass`'s loop, pagemap.cc:44-51. -/
def unregisterLoop (c : Cfg) (m : Map) : Nat → Nat → Option Map
  | 0, _ => some m
  | n + 1, p =>
    match clearClass c m p with
    | none => none
    | some m' => unregisterLoop c m' n (p + 1)

/-- The loop of `GetAllocatedSpans`, pagemap.h:425-447, started at page `i`; `first`/`last` are the
descriptors' current fields, `inv` the invalid span.  Result: the descriptors reported, in order, each with
the page at which it was found.  `fuel` bounds the number of iterations (each one moves to a larger page). -/
def allocatedLoop (c : Cfg) (m : Map) (first last : Nat → Nat) (inv : Nat) : Nat → Nat → List (Nat × Nat)
  | 0, _ => []
  | fuel + 1, i =>
    let s := get c m i
    if s = 0 ∨ s = inv ∨ i < first s ∨ last s < i then
      match nextSet c m i with
      | none => []
      | some j => allocatedLoop c m first last inv fuel j
    else
      (s, i) :: (match nextSet c m (last s) with
        | none => []
        | some j => allocatedLoop c m first last inv fuel j)

/-- `GetAllocatedSpans`, pagemap.h:420-449. -/
def allocatedSpans (c : Cfg) (m : Map) (first last : Nat → Nat) (inv : Nat) : List (Nat × Nat) :=
  allocatedLoop c m first last inv (2 ^ c.bits + 1) 0

/-! ### Operation sequences -/

inductive Op where
  | ensure (start n : Nat)
  | set (k s : Nat)
  | register (s sc first n : Nat)
  | unregister (first n : Nat)
  | setHuge (k v : Nat)
  deriving Repr

def step (c : Cfg) (al : Nat → Bool) (m : Map) : Op → Option Map
  | .ensure start n => some (ensure c al m start n).1
  | .set k s => set c m k s
  | .register s sc first n => registerLoop c m s sc n first
  | .unregister first n => unregisterLoop c m n first
  | .setHuge k v => setHuge c m k v

def run (c : Cfg) (al : Nat → Bool) : Map → List Op → Option Map
  | m, [] => some m
  | m, o :: os =>
    match step c al m o with
    | none => none
    | some m' => run c al m' os

end Verif.PageMap
