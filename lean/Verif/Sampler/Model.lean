/-!
Model of the allocation sampler, /repo/tcmalloc/sampler.{h,cc}, and of the way the allocation paths of
/repo/tcmalloc/tcmalloc.cc call it.

A sampler belongs to one thread: its calls are sequential.  The sampling interval is an atomic parameter that any thread
may change at any time, so every read of it is an argument (`Reads`).  The pseudo-random generator and the floating point
computation of `GetGeometricVariable` (sampler.cc:98-121) are not modelled: the value drawn is an argument, any number
from 0 to the largest `ssize_t`.  `size_t` is 64 bits.  Signed values are integers; a signed overflow that is undefined
behaviour and a failed assertion are `none`.
-/
namespace Verif.Sampler

/-- The signed value of the 64 bit pattern of `x` (conversion of `size_t` to `ssize_t`). -/
def toS (x : Int) : Int := if x % 2 ^ 64 < 2 ^ 63 then x % 2 ^ 64 else x % 2 ^ 64 - 2 ^ 64

/-- The unsigned value of the 64 bit pattern of `x` (conversion of `ssize_t` to `size_t`). -/
def toU (x : Int) : Nat := (x % 2 ^ 64).toNat

/-- The fields of `Sampler`, sampler.h:129-145, without the state of the random number generator. -/
structure S where
  /-- `sample_interval_` -/
  interval : Int
  /-- `initialized_` -/
  inited : Bool
  /-- `bytes_until_sample_` -/
  until_ : Int
  deriving Repr, DecidableEq

/-- The constexpr constructor, sampler.h:122-126. -/
def S.init : S := ⟨0, false, 0⟩

/-- What one execution of `PickNextSamplingPoint` reads: the interval, and the geometric variable drawn. -/
structure Pick where
  interval : Int
  draw : Nat
  deriving Repr, DecidableEq

/-- The values one call may read: the pick of `Init`, the pick after a sample, and the interval read last
(sampler.cc:153). -/
structure Reads where
  first : Pick
  next : Pick
  last : Int
  deriving Repr, DecidableEq

/-- `PickNextSamplingPoint`, sampler.cc:67-85: the new `sample_interval_` and the value returned.  `kIntervalOffset` is 1
(sampler.cc:43). -/
def pick (p : Pick) : Int × Int :=
  (p.interval,
    if p.interval ≤ 0 then 128 * 2 ^ 20
    else if p.interval = 1 then 0
    else max 0 ((p.draw : Int) - 1))

/-- `TryRecordAllocationFast`, sampler.h:163-174: the assertion, `k++` in `size_t`, and the unsigned subtraction, which is
stored even when it borrows. -/
def tryFast (s : S) (k : Nat) : Option (Bool × S) :=
  if s.until_ < 0 then none
  else
    let k1 : Nat := (k + 1) % 2 ^ 64
    some (!decide (s.until_ < (k1 : Int)), { s with until_ := toS (s.until_ - k1) })

/-- `weight`, sampler.cc:147-151: `bytes_until_sample_ + kIntervalOffset` is a signed addition; the subtraction saturates. -/
def weight (s : S) : Option Int :=
  if s.until_ + 1 < 2 ^ 63 then
    let w := s.interval - (s.until_ + 1)
    some (if w < -2 ^ 63 ∨ 2 ^ 63 ≤ w then 2 ^ 63 - 1 else w)
  else none

/-- The part of `RecordAllocationSlow` that takes a sample, sampler.cc:136-153. -/
def sample (s : S) (r : Reads) : Option (Nat × S) :=
  (weight s).map fun w =>
    let p := pick r.next
    (if r.last ≤ 0 then 0 else toU w, { s with interval := p.1, until_ := p.2 })

/-- `RecordAllocationSlow`, sampler.cc:123-154, with `Init`, sampler.cc:50-65. -/
def slow (s : S) (k : Nat) (r : Reads) : Option (Nat × S) :=
  if s.inited then sample s r
  else
    let p := pick r.first
    -- `bytes_until_sample_ -= k + 1` is computed in `size_t`
    let s1 : S := ⟨p.1, true, toS (p.2 - ((k + 1) % 2 ^ 64 : Nat))⟩
    if 0 ≤ s1.until_ then some (0, s1) else sample s1 r

/-- `RecordAllocation`, sampler.h:156-161. -/
def recordAllocation (s : S) (k : Nat) (r : Reads) : Option (Nat × S) :=
  match tryFast s k with
  | none => none
  | some (true, s1) => some (0, s1)
  | some (false, s1) => slow s1 k r

/-- `RecordedAllocationFast`, sampler.h:176-182. -/
def recordedFast (s : S) (k : Nat) (r : Reads) : Option (Nat × S) :=
  if s.until_ < 0 then slow s k r else some (0, s)

/-- `WillRecordAllocation`, sampler.h:184-186: the comparison is made in `size_t`. -/
def willRecord (s : S) (k : Nat) : Bool := decide (toU s.until_ < (k + 1) % 2 ^ 64)

/-- The sampler calls of one allocation of at most `kMaxSize` bytes: `fast_alloc` (tcmalloc.cc:1290) and, when the fast
path is not taken, `slow_alloc_small` (tcmalloc.cc:1238).  `hit` says whether `AllocateFast` finds an object. -/
def smallAlloc (s : S) (k : Nat) (hit : Bool) (r : Reads) : Option (Nat × S) :=
  match tryFast s k with
  | none => none
  | some (true, s1) => if hit then some (0, s1) else recordedFast s1 k r
  | some (false, s1) => recordedFast s1 k r

/-- The sampler call of a larger allocation: `slow_alloc_large` (tcmalloc.cc:1256). -/
def largeAlloc (s : S) (k : Nat) (r : Reads) : Option (Nat × S) := recordAllocation s k r

/-- One allocation by the thread. -/
structure Ev where
  k : Nat
  /-- whether the size is larger than `kMaxSize` -/
  large : Bool
  /-- for a small one, whether the per-CPU cache has an object -/
  hit : Bool
  reads : Reads
  deriving Repr, DecidableEq

def step (s : S) (e : Ev) : Option (Nat × S) :=
  if e.large then largeAlloc s e.k e.reads else smallAlloc s e.k e.hit e.reads

/-- The allocations of a thread, in order: the weights they are sampled with, and the sampler afterwards. -/
def run (s : S) : List Ev → Option (List Nat × S)
  | [] => some ([], s)
  | e :: es =>
    match step s e with
    | none => none
    | some (w, s1) => (run s1 es).map fun r => (w :: r.1, r.2)

end Verif.Sampler
