import Verif.Span.Model
/-!
Specification vocabulary for a span's free list, independent of how the list is encoded.
-/
namespace Verif.Span

/-- What the accepted size-class tables guarantee of every size class (`Verif.SizeMap`,
`accepted_table_wellformed`; span.h:724-732 `IsValidSizeClass`), and what a span is: at most 63 pages of
at most 256 KiB, objects 8-byte sized, `count` of them fit; classes not using the bitmap have one page;
those using it have at most `kBitmapSize` objects. -/
structure Geo.OK (g : Geo) : Prop where
  shiftLo : 12 ≤ g.pageShift
  shiftHi : g.pageShift ≤ 18
  pages : g.numPages ≤ 63
  cacheHi : g.cacheSize ≤ 15
  sizePos : 0 < g.size
  size8 : g.size % 8 = 0
  countPos : 0 < g.count
  fits : g.count * g.size ≤ g.numPages * g.pageSize
  listOne : useBitmap g = false → g.numPages = 1
  bitmapFits : useBitmap g = true → g.count ≤ g.bitmapSize

/-- `p` is the address of one of the span's objects. -/
def IsObj (g : Geo) (p : Nat) : Prop := ∃ k, k < g.count ∧ p = g.start + k * g.size

/-- The 16-bit words of the object at `p`. -/
def InObj (g : Geo) (p a : Nat) : Prop := p ≤ 2 * a ∧ 2 * a < p + g.size

/-- The index the central free list computes for an object before calling the `ObjIdx` overload
(central_freelist.h:625-632). -/
def objIdx (g : Geo) (p : Nat) : Nat :=
  if useBitmap g then bitmapPtrToIdx g p (calcReciprocal g.size) else ptrToIdx g p

/-- All histories of a span: built over arbitrary old contents (of the structure and of memory), then any
sequence of pops, pushes of batches of objects that are out (either overload, until one reports the span
entirely free), and arbitrary writes by the users of the objects that are out.  The last index is the list
of objects that are out. -/
inductive Reach (g : Geo) : St → Mem → List Nat → Prop
  | build (s : St) (w : Mem) (n : Nat) {s' : St} {w' : Mem} {out : List Nat} :
      build g s w n = some (s', w', out) → Reach g s' w' out
  | pop {s : St} {w : Mem} {live : List Nat} (n : Nat) {s' : St} {out : List Nat} :
      Reach g s w live → popBatch g s w n = some (s', out) → Reach g s' w (out ++ live)
  | push {s : St} {w : Mem} {live : List Nat} (batch : List Nat) {s' : St} {w' : Mem} :
      Reach g s w live → batch.Nodup → (∀ p ∈ batch, p ∈ live) →
      pushBatch g s w batch (calcReciprocal g.size) = some (true, s', w') →
      Reach g s' w' (live.filter fun p => decide (p ∉ batch))
  | pushIdx {s : St} {w : Mem} {live : List Nat} (batch : List Nat) {s' : St} {w' : Mem} :
      Reach g s w live → batch.Nodup → (∀ p ∈ batch, p ∈ live) →
      pushBatchIdx g s w (batch.map (objIdx g)) = some (true, s', w') →
      Reach g s' w' (live.filter fun p => decide (p ∉ batch))
  | write {s : St} {w : Mem} {live : List Nat} (w' : Mem) :
      Reach g s w live →
      (∀ p, IsObj g p → p ∉ live → ∀ a, InObj g p a → w' a = w a) → Reach g s w' live

end Verif.Span
