import Verif.Residency.Model
/-
Model of the estimate of zero bytes shown in heap profiles: /repo/tcmalloc/internal/compressibility.cc,
`SafeCopyMemory` in /repo/tcmalloc/internal/util.cc:137-180, and their use in
/repo/tcmalloc/internal/profile_builder.cc:203-215.

Simplifications: addresses are natural numbers (no wrap-around at the end of the address space); the memory copied does
not change while it is copied; `double` arithmetic is exact arithmetic on rationals followed by an arbitrary rounding
function, of which the specification says what it needs (`Rounding`).
-/
namespace Verif.ZeroBytes
open Verif.Bitmap Verif.Residency

/-- One entry of `remote_chunks`, compressibility.cc:62. -/
structure Chunk where
  start : Nat
  len : Nat
  deriving DecidableEq, Repr

/-- The loop of `CopyResidentPages`, compressibility.cc:66-91.  A chunk that ends before it starts (its length would wrap
around) and a loop that does not advance are `ub`. -/
def copyLoop (P addr size : Nat) (bits : List Word) (scan cap page total : Nat) (acc : List Chunk) : Out (List Chunk × Nat) :=
  match findSet kMaxResidencyBits bits page with
  | none => .ub
  | some i =>
    if i ≥ scan then .ok (acc, total)
    else
      match findClear kMaxResidencyBits bits i with
      | none => .ub
      | some j0 =>
        let j := min j0 scan
        let cs := max addr (basePage P addr + i * P)
        let ce := min (addr + size) (basePage P addr + j * P)
        if ce < cs then .ub
        else
          let n := min (ce - cs) (cap - total)
          let acc := acc ++ [⟨cs, n⟩]
          let total := total + n
          if j < scan ∧ total < cap then
            if _h : page < j ∧ j < scan then copyLoop P addr size bits scan cap j total acc else .ub
          else .ok (acc, total)
termination_by scan - page
decreasing_by omega

/-- `kMaxIov`, util.cc:143. -/
def kMaxIov : Nat := 64

/-- The loop of `SafeCopyMemory`, util.cc:147-171: `dst` is what has been written to the buffer of `cap` bytes; `answer n b`
is what the kernel's `n`-th call returns when asked for `b` bytes.  Writing past the buffer is `ub`. -/
def safeCopyLoop (mem : Nat → Nat) (answer : Nat → Nat → Int) (cap : Nat) (chunks : List Chunk) (call : Nat) (dst : List Nat) :
    Out (List Nat) :=
  if _h : chunks = [] then .ok dst
  else
    let batch := chunks.take (min chunks.length kMaxIov)
    let bytes := (batch.map Chunk.len).sum
    if dst.length + bytes > cap then .ub
    else if answer call bytes ≠ bytes then .fail
    else safeCopyLoop mem answer cap (chunks.drop (min chunks.length kMaxIov)) (call + 1)
      (dst ++ batch.flatMap (fun c => (List.range' c.start c.len).map mem))
termination_by chunks.length
decreasing_by
  have : 0 < chunks.length := List.length_pos_iff.2 _h
  simp only [List.length_drop, kMaxIov]
  omega

/-- `SafeCopyMemory`, util.cc:137-175. -/
def safeCopy (mem : Nat → Nat) (answer : Nat → Nat → Int) (cap : Nat) (chunks : List Chunk) : Out (List Nat) :=
  if chunks = [] then .fail else safeCopyLoop mem answer cap chunks 0 []

/-- `CopyResidentPages`, compressibility.cc:47-100: the chunks asked for and the bytes. -/
def copyResident (P : Nat) (mem : Nat → Nat) (answer : Nat → Nat → Int) (cap addr size : Nat) (info : Info) :
    Out (List Chunk × List Nat) :=
  let pages := (endPage P addr size - basePage P addr) / P
  let scan := min pages kMaxResidencyBits
  match copyLoop P addr size info.bits scan cap 0 0 [] with
  | .ub => .ub
  | .fail => .fail
  | .ok (chunks, total) =>
    if total > 0 then
      match safeCopy mem answer cap chunks with
      | .ub => .ub
      | .fail => .fail
      | .ok d => .ok (chunks, d)
    else .ok (chunks, [])

/-- `EstimateZeroBytes`, compressibility.cc:104-121.  `rnd` is the rounding of `double` operations. -/
def estimate (rnd : Rat → Rat) (size : Nat) (info : Info) (sample : List Nat) : Nat :=
  let backed := min size (info.resident + info.swapped)
  let unbacked := size - backed
  if sample = [] then unbacked
  else
    let zeroes := sample.count 0
    let ratio := rnd (rnd zeroes / rnd sample.length)
    let est := (rnd (ratio * rnd backed)).floor.toNat
    unbacked + est

/-- `CompressionAnalyzer::Analyze`, compressibility.cc:128-143. -/
def analyze (rnd : Rat → Rat) (P : Nat) (mem : Nat → Nat) (answer : Nat → Nat → Int) (cap addr size : Nat) (info : Info) : Out Nat :=
  match copyResident P mem answer cap addr size info with
  | .ub => .ub
  | .fail => .fail
  | .ok r => .ok (estimate rnd size info r.2)

/-- One sample of a heap profile, profile_builder.cc:203-215: what it adds to `zero_size`.  `none`: nothing is known of
the residency. -/
def addZero (rnd : Rat → Rat) (P : Nat) (mem : Nat → Nat) (answer : Nat → Nat → Int) (cap : Nat) (count addr requested allocated : Nat)
    (returning : Bool) (info : Option Info) : Out Nat :=
  match info with
  | none => .ok 0
  | some info =>
    if addr ≠ 0 ∧ requested > 0 then
      match analyze rnd P mem answer cap addr (if returning then allocated else requested) info with
      | .ub => .ub
      | .fail => .ok 0
      | .ok z => .ok (count * z)
    else .ok 0

end Verif.ZeroBytes
