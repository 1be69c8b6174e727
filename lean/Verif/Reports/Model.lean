import Verif.Reports.Spec
/-! `GwpAsanState` (internal/gwp_asan_state.h) and the functions that fill it (error_reporting.cc).  Not modelled: what is printed, and
`RecordCrash`.  `GetStackTrace(stack, kMaxStackDepth, 1)` is the first 64 frames of `here`. -/
namespace Verif.Reports

/-- `GwpAsanState::Type`, gwp_asan_state.h:37-43. -/
inductive Ty | none | mismatchedDelete | doubleFree | invalidFree | mismatchedFree
  deriving Repr, DecidableEq

/-- The fields, gwp_asan_state.h:241-251. -/
structure Rec where
  ty : Ty := .none
  ptr : Nat := 0
  pmin : Nat := 0
  pmax : Nat := 0
  min : Nat := 0
  max : Nat := 0
  actual : Option Nat := .none
  expected : Option Nat := .none
  allocTy : Option Family := .none
  deallocTy : Option Family := .none
  aStack : List Nat := List.replicate 64 0
  aDepth : Option Nat := .none
  dStack : List Nat := List.replicate 64 0
  dDepth : Option Nat := .none
  deriving Repr, DecidableEq

/-- `kMaxStackDepth`, internal/logging.h:55. -/
def kMaxStackDepth : Nat := 64

/-- The depth stored, e.g. gwp_asan_state.h:122-123. -/
def depthOf (st : List Nat) : Nat := Nat.min kMaxStackDepth st.length

/-- `memcpy` of the first frames over the array, e.g. gwp_asan_state.h:124-125. -/
def copyTo (arr st : List Nat) : List Nat := st.take (depthOf st) ++ arr.drop (depthOf st)

/-- The part every `Record…` has for the allocation's stack, when it is passed, e.g. gwp_asan_state.h:227-231. -/
def Rec.putAlloc (r : Rec) (st : List Nat) : Rec := { r with aStack := copyTo r.aStack st, aDepth := some (depthOf st) }
/-- The same for the stack of the free, e.g. gwp_asan_state.h:233-237. -/
def Rec.putFree (r : Rec) (st : List Nat) : Rec := { r with dStack := copyTo r.dStack st, dDepth := some (depthOf st) }
/-- An optional allocation stack: gwp_asan_state.h:121-129 and 177-185. -/
def Rec.putAllocOpt (r : Rec) : Option (List Nat) → Rec
  | some st => r.putAlloc st
  | .none => { r with aDepth := .none }
/-- An optional stack of the free, gwp_asan_state.h:131-139. -/
def Rec.putFreeOpt (r : Rec) : Option (List Nat) → Rec
  | some st => r.putFree st
  | .none => { r with dDepth := .none }

/-- `RecordMismatch`, gwp_asan_state.h:109-140. -/
def Rec.mismatch (r : Rec) (ptr pmin pmax min max : Nat) (a d : Option (List Nat)) : Rec :=
  (({ r with ptr := ptr, ty := .mismatchedDelete, pmin := pmin, pmax := pmax, min := min, max := max } : Rec).putAllocOpt a).putFreeOpt d

/-- `RecordDoubleFree`, gwp_asan_state.h:142-152. -/
def Rec.double (r : Rec) (ptr : Nat) (d : List Nat) : Rec := ({ r with ptr := ptr, ty := .doubleFree } : Rec).putFree d

/-- `RecordInvalidFree` of two arguments, gwp_asan_state.h:154-164. -/
def Rec.invalid (r : Rec) (ptr : Nat) (d : List Nat) : Rec := ({ r with ptr := ptr, ty := .invalidFree } : Rec).putFree d

/-- `RecordInvalidFree` with alignments, gwp_asan_state.h:166-192; the overload without optionals (194-215) stores the same. -/
def Rec.invalidAlign (r : Rec) (ptr : Nat) (actual expected : Option Nat) (a : Option (List Nat)) (d : List Nat) : Rec :=
  (({ r with ptr := ptr, ty := .invalidFree, actual := actual, expected := expected } : Rec).putAllocOpt a).putFree d

/-- `RecordMismatchedFree`, gwp_asan_state.h:217-238. -/
def Rec.family (r : Rec) (ptr : Nat) (at' dt : Family) (a d : List Nat) : Rec :=
  (({ r with ptr := ptr, ty := .mismatchedFree, allocTy := some at', deallocTy := some dt } : Rec).putAlloc a).putFree d

/-- `absl::countr_zero` of a 64-bit address, as used in error_reporting.cc:169. -/
def countrZero (a : Nat) : Nat := if a = 0 then 64 else if a % 2 = 1 then 0 else countrZero (a / 2) + 1
termination_by a
decreasing_by omega

/-- `1u << countr_zero(ptr)`, error_reporting.cc:169 and 187.  `none`: the shift of a 32-bit value by 32 or more bits, which is
undefined. -/
def actualAlign (ptr : Nat) : Option Nat := if countrZero ptr < 32 then some (1 <<< countrZero ptr) else .none

/-- The functions of error_reporting.cc (38-222) up to the point where the program is stopped.  `none`: undefined behaviour. -/
def report (r : Rec) : Error → Option Rec
  /- `ReportMismatchedDelete`, 38-75 -/
  | .sampledSize ptr size requested allocated st here =>
    let maximum := if allocated.getD requested ≠ requested then allocated.getD 0 else requested
    some (r.mismatch ptr size size requested maximum (some st) (some (here.take kMaxStackDepth)))
  /- `ReportMismatchedDelete`, 77-99 -/
  | .wrongSize ptr size lo hi here => some (r.mismatch ptr size size lo hi .none (some (here.take kMaxStackDepth)))
  /- `ReportMismatchedSizeClass`, 101-131 -/
  | .wrongClass ptr fl fh lo hi => some (r.mismatch ptr fl fh lo hi .none .none)
  /- `ReportDoubleFree`, 133-142 -/
  | .doubleFree ptr here => some (r.double ptr (here.take kMaxStackDepth))
  /- `ReportCorruptedFree`, 144-157 -/
  | .wild ptr here => some (r.invalid ptr (here.take kMaxStackDepth))
  /- `ReportCorruptedFree`, 159-174 -/
  | .misaligned ptr expected here =>
    (actualAlign ptr).map fun k => r.invalidAlign ptr (some k) (some expected) .none (here.take kMaxStackDepth)
  /- `ReportCorruptedFree`, 176-192 -/
  | .misalignedGuarded ptr expected st here =>
    (actualAlign ptr).map fun k => r.invalidAlign ptr (some k) (some expected) (some st) (here.take kMaxStackDepth)
  /- `ReportMismatchedFree`, 194-206 -/
  | .wrongFamily ptr a d st here => some (r.family ptr a d st (here.take kMaxStackDepth))
  /- `ReportMismatchedFree`, 208-222 -/
  | .wrongAlign ptr a d st here => some (r.invalidAlign ptr d a (some st) (here.take kMaxStackDepth))

/-- The accessors, gwp_asan_state.h:45-107.  `none`: nothing recorded, or an optional without a value is read. -/
def Rec.read (r : Rec) : Option Seen :=
  let a := r.aDepth.map fun n => r.aStack.take n
  let d := r.dDepth.map fun n => r.dStack.take n
  match r.ty with
  | .none => .none
  | .mismatchedDelete => some ⟨r.ptr, .sizes r.pmin r.pmax r.min r.max, a, d⟩
  | .doubleFree => some ⟨r.ptr, .none, a, d⟩
  | .invalidFree => some ⟨r.ptr, .aligns r.actual r.expected, a, d⟩
  | .mismatchedFree =>
    match r.allocTy, r.deallocTy with
    | some x, some y => some ⟨r.ptr, .families x y, a, d⟩
    | _, _ => .none

/-- Reports of several threads before the process is gone (error_reporting.cc:38-222).  Simplified: one report runs after the
other; the code takes no lock, so two could also interleave.  The range of a class in `wrongClass` is C86's. -/
def reports (r : Rec) : List Error → Option Rec
  | [] => some r
  | e :: es => (report r e).bind fun r' => reports r' es

end Verif.Reports
