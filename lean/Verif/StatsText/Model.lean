/-
Model of how statistics are turned into text: `Printer`, /repo/tcmalloc/internal/logging.h:246-309,
and its users that fill caller-supplied buffers: `MallocExtension_Internal_GetStatsInPbtxt`,
`PrintStats` (behind `malloc_stats`), `MallocExtension_Internal_GetStats` and
`TCMalloc_Internal_GetStats`, /repo/tcmalloc/tcmalloc.cc:197-277.

What the statistics say is a parameter: the sequence of `printf`/`Append` calls made by `DumpStats`
and `DumpStatsInPbtxt` is an arbitrary list, each formatted string already expanded.  `size_t`
arithmetic is done in the natural numbers.  A store outside the buffer, `strlen` running off its
end and a failed assertion are all `none`.
-/
namespace Verif.StatsText

/-- The byte 0. -/
def NUL : Char := Char.ofNat 0

/-- One call on a printer. -/
inductive Op where
  /-- `printf`, whose formatted text is `s`. -/
  | printf (s : List Char)
  /-- A `printf` in which formatting fails after producing `s`. -/
  | printfFail (s : List Char)
  /-- `Append` of these pieces. -/
  | append (pieces : List (List Char))
  deriving DecidableEq, Repr

/-- `Printer`, logging.h:247-252: the caller's buffer, `buf_` as an index into it, `left_` and
`required_`. -/
structure Printer where
  buf : List Char
  pos : Nat
  left : Nat
  required : Nat
  deriving DecidableEq, Repr

/-- Storing `s` at index `pos` of a buffer. -/
def store (b : List Char) (pos : Nat) (s : List Char) : Option (List Char) :=
  if pos + s.length ≤ b.length then some (b.take pos ++ s ++ b.drop (pos + s.length)) else none

/-- What `absl::SNPrintF(buf + pos, size, ...)` stores when the formatted text is `s`: nothing if
`size` is zero, otherwise as much of `s` as fits and a terminating zero. -/
def snprintf (b : List Char) (pos size : Nat) (s : List Char) : Option (List Char) :=
  if size = 0 then some b else store b pos (s.take (size - 1) ++ [NUL])

/-- What it stores when formatting fails after producing `s`. -/
def snprintfFail (b : List Char) (pos size : Nat) (s : List Char) : Option (List Char) :=
  if size = 0 then some b else store b pos (s.take (size - 1))

/-- The conversion of the number of characters to `int` in `SNPrintF`'s result. -/
def toInt32 (n : Nat) : Int := ((n : Int) + 2 ^ 31) % 2 ^ 32 - 2 ^ 31

/-- The constructor, logging.h:255-259 (with its assertion). -/
def mk (b : List Char) : Option Printer :=
  (store b 0 [NUL]).map fun b' => { buf := b', pos := 0, left := b.length, required := 0 }

/-- `printf` after the text was stored, logging.h:268-280. -/
def afterPrintf (p : Printer) (b : List Char) (r : Int) : Printer :=
  if r < 0 then { p with buf := b, left := 0 }
  else if r.toNat > p.left then { p with buf := b, required := p.required + r.toNat, left := 0 }
  else { buf := b, required := p.required + r.toNat,
         left := p.left - r.toNat, pos := p.pos + r.toNat }

/-- The loop of `AppendPieces`, logging.h:301-309: the buffer and `buf_`. -/
def copyPieces : List (List Char) → List Char × Nat → Option (List Char × Nat)
  | [], x => some x
  | s :: ss, (b, pos) =>
    if s.length = 0 then copyPieces ss (b, pos)
    else (store b pos s).bind fun b' => copyPieces ss (b', pos + s.length)

/-- `total_size`, logging.h:292-293. -/
def totalSize (pieces : List (List Char)) : Nat := (pieces.map List.length).sum

/-- One call: `printf`, logging.h:264-280, or `Append`, logging.h:283-312. -/
def step (p : Printer) : Op → Option Printer
  | .printf s =>
    (snprintf p.buf p.pos p.left s).map fun b => afterPrintf p b (toInt32 s.length)
  | .printfFail s =>
    (snprintfFail p.buf p.pos p.left s).map fun b => afterPrintf p b (-1)
  | .append pieces =>
    if p.left < totalSize pieces then
      some { p with required := p.required + totalSize pieces, left := 0 }
    else
      (copyPieces pieces (p.buf, p.pos)).map fun x =>
        { buf := x.1, pos := x.2, required := p.required + totalSize pieces,
          left := p.left - totalSize pieces }

def run (p : Printer) : List Op → Option Printer
  | [] => some p
  | o :: os => (step p o).bind fun p' => run p' os

/-- A printer over the buffer `b`, and these calls on it. -/
def print (b : List Char) (ops : List Op) : Option Printer := (mk b).bind fun p => run p ops

/-- `AddressRegionFactory::GetStats` or `GetStatsInPbtxt`, malloc_extension.h:386-397: given a
buffer, what it leaves there and the number it returns.  It can be supplied by the user. -/
abbrev Factory := List Char → List Char × Nat

/-- The default implementation, malloc_extension.cc:179-187. -/
def defaultFactory : Factory := fun span => (span, 0)

/-- Letting the factory write after the first `n` bytes of the buffer, tcmalloc.cc:211-218 and
270-276: the buffer and the total returned. -/
def withFactory (b : List Char) (n : Nat) (fac : Factory) : List Char × Nat :=
  if n < b.length then (b.take n ++ (fac (b.drop n)).1, n + (fac (b.drop n)).2) else (b, n)

/-- The level of detail, tcmalloc.cc:203-207 and 257-261. -/
def level (len : Nat) : Nat := if len < 10000 then 1 else 2

/-- `MallocExtension_Internal_GetStatsInPbtxt`, tcmalloc.cc:197-219.  `dump l` is
`DumpStatsInPbtxt(printer, l)`. -/
def getStatsInPbtxt (b : List Char) (dump : Nat → List Op) (fac : Factory) :
    Option (List Char × Nat) :=
  (print b (dump (level b.length))).map fun p => withFactory p.buf p.required fac

/-- The two lines printed last, tcmalloc.cc:263-266. -/
def tailOps (releaseErrors : Nat) : List Op :=
  [.printf "\nLow-level allocator stats:\n".toList,
   .printf ("Memory Release Failures: ".toList ++ (toString releaseErrors).toList ++ ['\n'])]

/-- `TCMalloc_Internal_GetStats`, tcmalloc.cc:254-278. -/
def internalGetStats (b : List Char) (dump : Nat → List Op) (releaseErrors : Nat) (fac : Factory) :
    Option (List Char × Nat) :=
  (print b (dump (level b.length) ++ tailOps releaseErrors)).map fun p =>
    withFactory p.buf p.required fac

/-- What one attempt of `MallocExtension::GetStats` meets: the contents of the string's buffer,
the statistics at that moment, the release failures so far and the factory. -/
structure Attempt where
  buf : List Char
  dump : Nat → List Op
  releaseErrors : Nat
  fac : Factory

/-- One iteration of the loop, tcmalloc.cc:236-247: the string's new contents if it succeeded. -/
def attempt (a : Attempt) : Option (Option (List Char)) :=
  (internalGetStats a.buf a.dump a.releaseErrors a.fac).map fun x =>
    if x.2 < a.buf.length then some (x.1.take x.2) else none

/-- `MallocExtension_Internal_GetStats`, tcmalloc.cc:230-252, on the fresh string that
`MallocExtension::GetStats`, malloc_extension.cc:219-231, passes (a short-string buffer, so `shift`
starts at 22).  `att shift` is what the attempt with a buffer of `2 ^ shift - 1` bytes meets. -/
def getStatsFrom (att : Nat → Attempt) : Nat → Nat → Option (List Char)
  | 0, _ => some []
  | fuel + 1, shift =>
    if shift < 24 then
      (attempt (att shift)).bind fun
        | some s => some s
        | none => getStatsFrom att fuel (shift + 1)
    else some []

def getStats (att : Nat → Attempt) : Option (List Char) := getStatsFrom att 24 22

/-- `strlen`: the length of the text before the first zero; `none` if the buffer has none. -/
def strlen (b : List Char) : Option Nat := b.findIdx? (· == NUL)

/-- `PrintStats(1)`, tcmalloc.cc:221-228 and 1112 (`malloc_stats`): what is written to standard
error.  `b` is the new buffer, of 64 KiB. -/
def mallocStats (b : List Char) (dump : Nat → List Op) : Option (List Char) :=
  (print b (dump 1)).bind fun p => (strlen p.buf).map fun n => p.buf.take n

end Verif.StatsText
