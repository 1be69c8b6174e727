import Verif.Bitmap.Model
/-
Model of the free list of a small-object span: /repo/tcmalloc/span.h, /repo/tcmalloc/span.cc.

Both encodings (bitmap, and compressed list threaded through the free objects), both builds (the
default one and `TCMALLOC_INTERNAL_LEGACY_LOCKING`), both overloads of the push.  Objects' memory is an
explicit map of 16-bit words (`ObjIdx`), addressed by `byte address / 2`: the list encoding lives in it.
Sampling state, statistics and the allocation time are not modelled here (`Meta.lean`-level fields are in
`SpanMeta`, below).
-/
namespace Verif.Span
open Verif.Bitmap (Word)

/-- A span of one size class: what `CentralFreeList` passes to every call. -/
structure Geo where
  pageShift : Nat
  /-- `kCacheSize`, span.h:278-282: 12, or 8 in the legacy build. -/
  cacheSize : Nat
  legacy : Bool
  firstPage : Nat
  numPages : Nat
  size : Nat
  /-- objects per span -/
  count : Nat
  deriving Repr, DecidableEq

def Geo.pageSize (g : Geo) : Nat := 2 ^ g.pageShift
/-- `first_page().start_uintptr()`, pages.h. -/
def Geo.start (g : Geo) : Nat := g.firstPage * g.pageSize
/-- `kBitmapSize`, span.h:323: 8 * sizeof(ObjIdx) * kCacheSize. -/
def Geo.bitmapSize (g : Geo) : Nat := 16 * g.cacheSize

/-- `kListEnd`, span.h:268: `ObjIdx(-1)`. -/
def kListEnd : Nat := 65535
/-- `kBitmapScalingDenominator`, span.h:53. -/
def kDenom : Nat := 2 ^ 30

/-- 16-bit words of memory, by `address / 2`. -/
abbrev Mem := Nat → Nat

def wr (w : Mem) (a v : Nat) : Mem := fun x => if x = a then v else w x

/-- The fields of the span the free list uses.  `cache` is `list_.cache[0 .. cache_size_)`: entries past
`cache_size_` are never read.  `bitmap` is the union's other member. -/
structure St where
  alloc : Nat
  cache : List Nat
  freelist : Nat
  embed : Nat
  bitmap : List Word
  deriving Repr

/-- `UseBitmapForSize`, span.h:734-741. -/
def useBitmap (g : Geo) : Bool := decide (g.size ≥ g.pageSize / g.bitmapSize)

/-- `PtrToIdx`, span.h:451-465: `(p & (kPageSize - 1)) >> kAlignmentShift`, cut to 16 bits. -/
def ptrToIdx (g : Geo) (p : Nat) : Nat := ((p &&& (g.pageSize - 1)) >>> 3) % 2 ^ 16

/-- `IdxToPtr`, span.h:440-449. -/
def idxToPtr (start idx : Nat) : Nat := start + (idx <<< 3)

/-- `CalcReciprocal`, span.cc:125-132 (returns `uint32_t`). -/
def calcReciprocal (size : Nat) : Nat := (kDenom / size) % 2 ^ 32

/-- `OffsetToIdx`, span.h:592-597: 64-bit multiplication, cut to 16 bits. -/
def offsetToIdx (offset reciprocal : Nat) : Nat :=
  (((offset * reciprocal + kDenom / 2) % 2 ^ 64) / kDenom) % 2 ^ 16

/-- `BitmapPtrToIdx`, span.h:606-613 (`static_cast<uint32_t>` of the offset; addresses are above the
span start, so the subtraction does not wrap). -/
def bitmapPtrToIdx (g : Geo) (p reciprocal : Nat) : Nat :=
  offsetToIdx ((p - g.start) % 2 ^ 32) reciprocal

/-- `BitmapIdxToPtr`, span.h:600-603, span.cc:119-122. -/
def bitmapIdxToPtr (g : Geo) (idx : Nat) : Nat := g.start + idx * g.size

/-! ### List encoding -/

/-- One turn of the loop of `ListPushBatch(void*)`, span.h:513-529. -/
def listPushOne (g : Geo) (start : Nat) (s : St) (w : Mem) (ptr : Nat) : St × Mem :=
  if s.freelist ≠ kListEnd ∧ s.embed ≠ g.size / 2 - 1 then
    ({ s with embed := s.embed + 1 },
      wr w (idxToPtr start s.freelist / 2 + (s.embed + 1)) (ptrToIdx g ptr))
  else
    ({ s with freelist := ptrToIdx g ptr, embed := 0 }, wr w (ptr / 2) s.freelist)

def listPushLoop (g : Geo) (start : Nat) : St → Mem → List Nat → St × Mem
  | s, w, [] => (s, w)
  | s, w, p :: ps =>
    match listPushOne g start s w p with
    | (s', w') => listPushLoop g start s' w' ps

/-- `ListPushBatch(absl::Span<void*>)`, span.h:485-531. -/
def listPush (g : Geo) (s : St) (w : Mem) (batch : List Nat) : St × Mem :=
  let cw := min (g.cacheSize - s.cache.length) batch.length
  let s1 := { s with cache := s.cache ++ (batch.take cw).map (ptrToIdx g) }
  match batch.drop cw with
  | [] => (s1, w)
  | p :: ps => listPushLoop g (p - p % g.pageSize) s1 w (p :: ps)

/-- The loop of `ListPushBatch(ObjIdx)`, span.h:573-586; `host` is the word address of the first object
on the list. -/
def idxPushLoop (g : Geo) : Nat → Nat → Nat → Mem → List Nat → Nat × Nat × Mem
  | fl, em, _, w, [] => (fl, em, w)
  | fl, em, host, w, idx :: is =>
    if em ≠ g.size / 2 - 1 then idxPushLoop g fl (em + 1) host (wr w (host + (em + 1)) idx) is
    else
      idxPushLoop g idx 0 (idxToPtr g.start idx / 2) (wr w (idxToPtr g.start idx / 2) fl) is

/-- `ListPushBatch(absl::Span<ObjIdx>)`, span.h:533-590. -/
def listPushIdx (g : Geo) (s : St) (w : Mem) (batch : List Nat) : St × Mem :=
  let cw := min (g.cacheSize - s.cache.length) batch.length
  let s1 := { s with cache := s.cache ++ batch.take cw }
  match batch.drop cw with
  | [] => (s1, w)
  | i :: is =>
    if s.freelist ≠ kListEnd then
      match idxPushLoop g s.freelist s.embed (idxToPtr g.start s.freelist / 2) w (i :: is) with
      | (fl, em, w') => ({ s1 with freelist := fl, embed := em }, w')
    else
      match idxPushLoop g i 0 (idxToPtr g.start i / 2) (wr w (idxToPtr g.start i / 2) kListEnd) is with
      | (fl, em, w') => ({ s1 with freelist := fl, embed := em }, w')

/-- The loop of `ListPopBatch`, span.h:802-834; the argument is `N - result`.  Returns the pointers
written to `batch`, and the final `freelist_` and `embed_count_`. -/
def listPopLoop (g : Geo) (w : Mem) (n : Nat) (fl em : Nat) : List Nat × Nat × Nat :=
  if n = 0 then ([], fl, em)
  else if fl = kListEnd then ([], fl, em)
  else
    let host := idxToPtr g.start fl
    let iter := if em > n then n else em
    let popped := (List.range iter).map fun i => idxToPtr g.start (w (host / 2 + (em - i)))
    if iter = n then (popped, fl, em - iter)
    else
      match listPopLoop g w (n - iter - 1) (w (host / 2)) (g.size / 2 - 1) with
      | (rest, fl', em') => (popped ++ host :: rest, fl', em')
termination_by n
decreasing_by omega

/-- `ListPopBatch`, span.h:786-838. -/
def listPop (g : Geo) (s : St) (w : Mem) (n : Nat) : St × List Nat :=
  let cr := min s.cache.length n
  let fromCache := (List.range cr).map fun i =>
    idxToPtr g.start (s.cache.getD (s.cache.length - i - 1) 0)
  match listPopLoop g w (n - cr) s.freelist s.embed with
  | (rest, fl, em) =>
    ({ s with cache := s.cache.take (s.cache.length - cr), freelist := fl, embed := em,
              alloc := s.alloc + (fromCache ++ rest).length }, fromCache ++ rest)

/-- The last loop of `BuildFreelist`, span.cc:197-213.  The code's `idx` is `step * i` and its `idxEnd`
is `step * (i + r)`; `host` is the first object on the list, if any. -/
def buildLoop (g : Geo) (step : Nat) : Nat → Nat → Option Nat → Nat → Nat → Mem → Nat × Nat × Mem
  | 0, _, _, em, fl, w => (fl, em, w)
  | r + 1, i, host, em, fl, w =>
    match host with
    | none =>
      buildLoop g step r (i + 1) (some (step * i)) 0 (step * i)
        (wr w (idxToPtr g.start (step * i) / 2) fl)
    | some h =>
      if em ≠ g.size / 2 - 1 then
        buildLoop g step r i (some h) (em + 1) fl
          (wr w (idxToPtr g.start h / 2 + (em + 1)) (step * (i + r)))
      else
        buildLoop g step r (i + 1) (some (step * i)) 0 (step * i)
          (wr w (idxToPtr g.start (step * i) / 2) fl)

/-- `BuildFreelist` for the list encoding, span.cc:148, 156-215.  `n` is `batch.size()`. -/
def listBuild (g : Geo) (s : St) (w : Mem) (n : Nat) : St × Mem × List Nat :=
  let result := if n ≤ g.count then n else g.count
  let batch := (List.range result).map fun i => g.start + i * g.size
  let step := g.size / 8
  let cs := min g.cacheSize (g.count - result)
  let cache := (List.range cs).map fun k => step * (result + k)
  match buildLoop g step (g.count - result - cs) (result + cs) none 0 kListEnd w with
  | (fl, em, w') => ({ s with alloc := result, cache := cache, freelist := fl, embed := em }, w', batch)

/-! ### Bitmap encoding -/

/-- The loop of `BitmapPushBatch(void*)`, span.h:615-632 (`none`: an index outside the bitmap). -/
def bitmapPush (g : Geo) (reciprocal : Nat) : List Word → List Nat → Option (List Word)
  | ws, [] => some ws
  | ws, p :: ps =>
    (Bitmap.setBit g.bitmapSize ws (bitmapPtrToIdx g p reciprocal)).bind fun r =>
      bitmapPush g reciprocal r.1 ps

/-- `BitmapPushBatch(ObjIdx)`, span.h:634-645. -/
def bitmapPushIdx (g : Geo) : List Word → List Nat → Option (List Word)
  | ws, [] => some ws
  | ws, i :: is =>
    (Bitmap.setBit g.bitmapSize ws i).bind fun r => bitmapPushIdx g r.1 is

/-- The loop of the legacy `BitmapPopBatch`, span.h:750-756: bit numbers. -/
def popLegacy (g : Geo) : Nat → List Word → Option (List Word × List Nat)
  | 0, ws => some (ws, [])
  | n + 1, ws =>
    if Bitmap.isZero ws then some (ws, [])
    else
      match Bitmap.findSet g.bitmapSize ws 0 with
      | none => none
      | some off =>
        match popLegacy g n (Bitmap.clearLowestBit ws) with
        | none => none
        | some (ws', l) => some (ws', off :: l)

/-- `BitmapPopBatch`, span.h:743-773 (`ObjIdx` cast to 16 bits). -/
def bitmapPop (g : Geo) (s : St) (n : Nat) : Option (St × List Nat) :=
  match (if g.legacy then popLegacy g n s.bitmap else some (Bitmap.popBatch s.bitmap 0 n)) with
  | none => none
  | some (ws, l) =>
    some ({ s with bitmap := ws, alloc := s.alloc + l.length },
      l.map fun i => bitmapIdxToPtr g (i % 2 ^ 16))

/-- `BuildBitmap`, span.cc:134-142. -/
def buildBitmap (g : Geo) (s : St) : Option St :=
  match Bitmap.setRangeValue true g.bitmapSize (Bitmap.empty g.bitmapSize) 0 g.count with
  | none => none
  | some ws => some { s with alloc := 0, bitmap := ws }

/-! ### The interface used by the central free list -/

/-- `BuildFreelist`, span.cc:144-216: (state, memory, objects put in the batch). -/
def build (g : Geo) (s : St) (w : Mem) (n : Nat) : Option (St × Mem × List Nat) :=
  if useBitmap g then
    match buildBitmap g { s with freelist := kListEnd } with
    | none => none
    | some s1 =>
      match bitmapPop g s1 n with
      | none => none
      | some (s2, out) => some (s2, w, out)
  else some (listBuild g s w n)

/-- `FreelistPushBatch<void*>`, span.h:468-483: `false` means the span is now entirely free and nothing
was stored.  `none`: `batch.size()` exceeds the allocated count (`TC_ASSERT_GE`, then 16-bit
wrap-around). -/
def pushBatch (g : Geo) (s : St) (w : Mem) (batch : List Nat) (reciprocal : Nat) :
    Option (Bool × St × Mem) :=
  if s.alloc < batch.length then none
  else if s.alloc = batch.length then some (false, s, w)
  else
    let s1 := { s with alloc := s.alloc - batch.length }
    if useBitmap g then
      match bitmapPush g reciprocal s1.bitmap batch with
      | none => none
      | some ws => some (true, { s1 with bitmap := ws }, w)
    else
      match listPush g s1 w batch with
      | (s2, w') => some (true, s2, w')

/-- `FreelistPushBatch<ObjIdx>`, span.h:468-483. -/
def pushBatchIdx (g : Geo) (s : St) (w : Mem) (batch : List Nat) : Option (Bool × St × Mem) :=
  if s.alloc < batch.length then none
  else if s.alloc = batch.length then some (false, s, w)
  else
    let s1 := { s with alloc := s.alloc - batch.length }
    if useBitmap g then
      match bitmapPushIdx g s1.bitmap batch with
      | none => none
      | some ws => some (true, { s1 with bitmap := ws }, w)
    else
      match listPushIdx g s1 w batch with
      | (s2, w') => some (true, s2, w')

/-- `FreelistPopBatch`, span.h:775-784. -/
def popBatch (g : Geo) (s : St) (w : Mem) (n : Nat) : Option (St × List Nat) :=
  if useBitmap g then bitmapPop g s n else some (listPop g s w n)

/-- `FreelistEmpty`, span.h:701-714. -/
def freelistEmpty (g : Geo) (s : St) : Bool :=
  if g.legacy then
    if useBitmap g then Bitmap.isZero s.bitmap
    else decide (s.cache.length = 0) && decide (s.freelist = kListEnd)
  else decide (s.alloc = g.count)

/-! ### Page count and sampling state -/

/-- The fields behind `num_pages()`, `sampled()` (span.h:330-358): `large` is `is_large_span_`,
`small` is the 6-bit `small_num_pages_`, `big` and `ptr` are `large_or_sampled_state_`. -/
structure Meta where
  large : Bool
  sampled : Bool
  small : Nat
  big : Nat
  ptr : Option Nat
  deriving Repr, DecidableEq

/-- `set_num_pages`, span.h:683-692 (`kLargeSpanLength` = 63; the bit field keeps 6 bits). -/
def setNumPages (m : Meta) (n : Nat) : Meta :=
  if n > 63 ∨ m.sampled then { m with big := n, large := decide (n > 63) }
  else { m with small := n % 64, large := false }

/-- `num_pages`, span.h:676-681. -/
def numPages (m : Meta) : Nat := if m.large || m.sampled then m.big else m.small

/-- `Span(Range)`, span.h:96-110. -/
def newMeta (n : Nat) : Meta := setNumPages ⟨false, false, 0, 0, none⟩ n

/-- `Sample`, span.cc:46-60 (`none`: `TC_CHECK` failed). -/
def sample (m : Meta) (a : Nat) : Option Meta :=
  if m.sampled then none
  else if numPages m = 0 then none
  else some { m with sampled := true, big := numPages m, ptr := some a }

/-- `Unsample`, span.h:840-845, and `UnsampleSlow`, span.cc:62-80. -/
def unsample (m : Meta) : Option (Meta × Option Nat) :=
  if !m.sampled then some (m, none)
  else if numPages m = 0 then none
  else
    match m.ptr with
    | none => none
    | some a => some ({ m with sampled := false, big := numPages m, ptr := none }, some a)

end Verif.Span
