/-!
The reader of `/proc/self/status`: `GetMemoryStatsFromStatus`, internal/memory_stats.cc:58-139.

Simplified: bytes are characters; `absl::StripAsciiWhitespace` and `absl::SimpleAtoi` are modelled from their documentation.
-/
namespace Verif.SysFiles

/-- `MemoryStats`, internal/memory_stats.h:36-41, and the set of fields seen, memory_stats.cc:66. -/
structure Mem where
  vss : Nat := 0
  rss : Nat := 0
  shared : Nat := 0
  code : Nat := 0
  data : Nat := 0
  vmpte : Nat := 0
  seen : Nat := 0
  deriving DecidableEq, Repr

/-- `find`, for one character. -/
def cut (c : Char) : List Char → Option (List Char × List Char)
  | [] => none
  | x :: l => if x = c then some ([], l) else (cut c l).map fun p => (x :: p.1, p.2)

/-- `absl::ascii_isspace`. -/
def isSpace (c : Char) : Bool := c = ' ' || (9 ≤ c.toNat && c.toNat ≤ 13)

/-- `absl::StripAsciiWhitespace`. -/
def strip (l : List Char) : List Char := ((l.dropWhile isSpace).reverse.dropWhile isSpace).reverse

def digit (c : Char) : Option Nat := if 48 ≤ c.toNat ∧ c.toNat ≤ 57 then some (c.toNat - 48) else none

/-- The digits of a number, with the overflow of 64 bits. -/
def digits (acc : Nat) : List Char → Option Nat
  | [] => some acc
  | c :: l =>
    match digit c with
    | none => none
    | some d => if acc * 10 + d < 2 ^ 64 then digits (acc * 10 + d) l else none

/-- `absl::SimpleAtoi` for `size_t`: white space around it, a plus sign; no digits, other characters, a minus sign and overflow are errors. -/
def atoi (l : List Char) : Option Nat :=
  match strip l with
  | [] => none
  | '+' :: r => if r = [] then none else digits 0 r
  | r => digits 0 r

def kb : List Char := [' ', 'k', 'B']

/-- `absl::EndsWith(rest, " kB")`, and the rest without it, memory_stats.cc:92-96. -/
def unKb (l : List Char) : List Char × Bool :=
  if kb.length ≤ l.length ∧ l.drop (l.length - kb.length) = kb then (l.take (l.length - kb.length), true) else (l, false)

/-- The key and the value of a line, memory_stats.cc:82-105. -/
def field (line : List Char) : Option (List Char × Nat) :=
  match cut ':' line with
  | none => none
  | some (key, rest) =>
    let (num, k) := unKb (strip rest)
    match atoi num with
    | none => none
    | some v => some (key, if k then v * 1024 % 2 ^ 64 else v)

/-- The assignments, memory_stats.cc:106-124. -/
def Mem.set (m : Mem) (key : List Char) (v : Nat) : Mem :=
  if key = "VmSize".toList then { m with vss := v, seen := m.seen ||| 0x1 }
  else if key = "VmRSS".toList then { m with rss := v, seen := m.seen ||| 0x2 }
  else if key = "RssFile".toList ∨ key = "RssShmem".toList then { m with shared := m.shared + v, seen := m.seen ||| 0x4 }
  else if key = "VmExe".toList then { m with code := v, seen := m.seen ||| 0x8 }
  else if key = "VmData".toList ∨ key = "VmStk".toList then { m with data := m.data + v, seen := m.seen ||| 0x10 }
  else if key = "VmPTE".toList then { m with vmpte := v, seen := m.seen ||| 0x20 }
  else m

/-- One line, memory_stats.cc:82-124. -/
def Mem.line (m : Mem) (l : List Char) : Mem :=
  match field l with
  | none => m
  | some (key, v) => m.set key v

/-- The loop over the lines in the buffer, memory_stats.cc:72-125.  `fuel` bounds the number of lines. -/
def lines : Nat → Mem → List Char → Mem × List Char
  | 0, m, contents => (m, contents)
  | fuel + 1, m, contents =>
    match cut '\n' contents with
    | none => (m, contents)
    | some (l, rest) => lines fuel (m.line l) rest

/-- The loop over the reads, memory_stats.cc:67-136.  `K` is `kBufferSize`; `buf` what is left in the buffer; `file` the bytes not yet read.  The read
number `i` gives as many bytes as the list says, but no more than there is room and there are; no bytes (the end of the file, an error) end the loop. -/
def reads (K : Nat) (m : Mem) (buf file : List Char) : List Nat → Mem × List Char
  | [] => (m, file)
  | n :: ns =>
    let got := file.take (min n (K - buf.length))
    if got = [] then (m, file)
    else
      let (m, rest) := lines (buf ++ got).length m (buf ++ got)
      reads K m (if rest.length = K then [] else rest) (file.drop got.length) ns

def kBufferSize : Nat := 1024

/-- `GetMemoryStatsFromStatus`: the statistics, whether they are complete, and what has not been read. -/
def fromStatus (file : List Char) (ns : List Nat) : Mem × Bool × List Char :=
  let (m, rest) := reads kBufferSize {} [] file ns
  (m, m.seen == 0x3f, rest)

end Verif.SysFiles
