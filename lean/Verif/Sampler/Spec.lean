import Verif.Sampler.Model
/-!
What the sampler is supposed to do, in terms of a stream of bytes (the comment of sampler.h:48-76): each allocation of `k`
bytes takes the next `k + 1` bytes of the stream, one byte ahead is marked, and the allocation that contains the marked
byte is sampled.
-/
namespace Verif.Sampler

/-- The marked byte: the interval `T` it was drawn for, its position `at_` (1 is the first byte after the last sample) and
the bytes taken since the last sample. -/
structure Mark where
  T : Int
  at_ : Nat
  taken : Nat
  deriving Repr, DecidableEq

/-- Where the next marked byte is: the number drawn, but at least 1; 1 if every allocation is to be sampled; and 128 MiB
away if there is no sampling. -/
def Pick.mark (p : Pick) : Mark :=
  ⟨p.interval, if p.interval ≤ 0 then 128 * 2 ^ 20 + 1 else if p.interval = 1 then 1 else max 1 p.draw, 0⟩

/-- One allocation, when a byte has been marked: the weight it is sampled with (0: not sampled), and the next mark. -/
def Mark.alloc (m : Mark) (k : Nat) (r : Reads) : Nat × Mark :=
  let taken := m.taken + k + 1
  if taken < m.at_ then (0, { m with taken := taken })
  else (if r.last ≤ 0 then 0 else (min (m.T + (taken - m.at_ : Nat)) (2 ^ 63 - 1)).toNat, r.next.mark)

/-- The weights of a sequence of allocations, and the mark at the end. -/
def Mark.run (m : Mark) : List Ev → List Nat × Mark
  | [] => ([], m)
  | e :: es =>
    let a := m.alloc e.k e.reads
    let b := a.2.run es
    (a.1 :: b.1, b.2)

/-- A thread marks its first byte at its first allocation. -/
def firstMark (es : List Ev) : Mark :=
  match es with
  | [] => ⟨0, 1, 0⟩
  | e :: _ => e.reads.first.mark

/-- Values the program can read: an interval is an `int64_t`, a draw an `ssize_t` that is not negative. -/
structure Pick.OK (p : Pick) : Prop where
  lo : -2 ^ 63 ≤ p.interval
  hi : p.interval < 2 ^ 63
  draw : p.draw < 2 ^ 63

structure Reads.OK (r : Reads) : Prop where
  first : r.first.OK
  next : r.next.OK

/-- A size that fits `size_t`, and only sizes up to `kMaxSize` (at most 2^18) take the small path. -/
structure Ev.OK (e : Ev) : Prop where
  k : e.k < 2 ^ 64
  small : e.large = false → e.k ≤ 2 ^ 18
  reads : e.reads.OK

/-- No interval read in the call is negative. -/
structure Ev.NonNeg (e : Ev) : Prop where
  first : 0 ≤ e.reads.first.interval
  next : 0 ≤ e.reads.next.interval

/-- The thread's samplers that can occur: the initial one, and what allocations make of it. -/
inductive Reach : S → Prop
  | init : Reach S.init
  | step {s s' e w} : Reach s → e.OK → Sampler.step s e = some (w, s') → Reach s'

end Verif.Sampler
