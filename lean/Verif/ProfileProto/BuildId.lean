/-
Model of `GetBuildId`, /repo/tcmalloc/internal/profile_builder.cc:225-283: the build id of a loaded
file, from its note segments.  The bytes of a segment are a list; reading outside it is `fail`, and
so is a loop that does not end.  Simplified: the pointer `note` is an offset in its segment, and
reading a header that is not aligned is allowed, as on the processors the code runs on.
-/
namespace Verif.ProfileProto.BuildId

/-- A program header with `p_type == PT_NOTE`: the `p_filesz` bytes at `dlpi_addr + p_vaddr`, and
`p_align`.  Others are skipped, :238. -/
structure Note where
  bytes : List UInt8
  align : Nat

/-- An `ElfW(Word)`, least significant byte first. -/
def word (s : List UInt8) (o : Nat) : Option Nat :=
  match s[o]?, s[o + 1]?, s[o + 2]?, s[o + 3]? with
  | some a, some b, some c, some d =>
    some (a.toNat + 2 ^ 8 * b.toNat + 2 ^ 16 * c.toNat + 2 ^ 24 * d.toNat)
  | _, _, _, _ => none

/-- `n` bytes from offset `o`. -/
def slice (s : List UInt8) (o n : Nat) : Option (List UInt8) :=
  if o + n ≤ s.length then some ((s.drop o).take n) else none

/-- `NT_GNU_BUILD_ID`, and `sizeof(ElfW(Nhdr))`. -/
def kBuildId : Nat := 3
def kHeader : Nat := 12

/-- `(x + align - 1) & -align` assigned to an `ElfW(Word)`; `x` is a `size_t` for `desc_start` and an
`ElfW(Word)` for the descriptor, which makes no difference below `2^32`. -/
def alignUp (x align : Nat) : Nat :=
  ((x + align + (2 ^ 32 - 1)) % 2 ^ 32) &&& ((2 ^ 32 - align) % 2 ^ 32)

/-- `desc_start`, :252-253. -/
def descStartOf (namesz align : Nat) : Nat := alignUp (kHeader + namesz) align

/-- `size`, :254-255. -/
def sizeOf (descStart descsz align : Nat) : Nat := (descStart + alignUp descsz align) % 2 ^ 32

inductive Out where
  | fail
  | ok (result : List Char)
  deriving DecidableEq, Repr

def digit (n : Nat) : Char := "0123456789abcdef".toList.getD n '?'

/-- `absl::BytesToHexString` -/
def hex (l : List UInt8) : List Char :=
  l.flatMap fun b => [digit (b.toNat / 16), digit (b.toNat % 16)]

inductive Seg where
  | fail
  /-- `return ""` -/
  | stop
  /-- The next segment. -/
  | next (result : List Char)
  deriving DecidableEq, Repr

/-- The wrap-around check, :257-261. -/
def corrupt (last note align namesz descsz descStart size : Nat) : Bool :=
  decide ((2 ^ 32 - align) % 2 ^ 32 ≤ namesz) || decide ((2 ^ 32 - align) % 2 ^ 32 ≤ descsz) ||
  decide (descStart < kHeader) || decide (size < descStart) || decide (last - note < size)

inductive Turn where
  | done (r : Seg)
  /-- `note += size`, and the result. -/
  | again (note : Nat) (result : List Char)
  deriving DecidableEq, Repr

/-- `memcmp(note_name, "GNU\0", 4) == 0` -/
def isGnu (name : List UInt8) : Bool := name == [0x47, 0x4e, 0x55, 0]

/-- :264-278, for a note that passed the checks. -/
def take (s : List UInt8) (note namesz descsz descStart size : Nat) (result : List Char) : Turn :=
  match word s (note + 8) with
  | none => .done .fail
  | some type =>
    if type = kBuildId ∧ namesz = 4 then
      match slice s (note + kHeader) 4 with
      | none => .done .fail
      | some name =>
        if isGnu name then
          if result ≠ [] then .done .stop
          else
            match slice s (note + descStart) descsz with
            | none => .done .fail
            | some desc => .again (note + size) (hex desc)
        else .again (note + size) result
    else .again (note + size) result

/-- One turn of `while (note < last)`, :245-279.  `align` is an `ElfW(Word)`. -/
def turn (s : List UInt8) (align note : Nat) (result : List Char) : Turn :=
  if s.length ≤ note then .done (.next result)
  else if s.length < note + kHeader then .done (.next result)
  else
    match word s note, word s (note + 4) with
    | some namesz, some descsz =>
      let descStart := descStartOf namesz align
      let size := sizeOf descStart descsz align
      if corrupt s.length note align namesz descsz descStart size then .done (.next result)
      else take s note namesz descsz descStart size result
    | _, _ => .done .fail

/-- The loop, :245-279. -/
def loop (s : List UInt8) (align : Nat) : Nat → Nat → List Char → Seg
  | 0, _, _ => .fail
  | fuel + 1, note, result =>
    match turn s align note result with
    | .done r => r
    | .again note result => loop s align fuel note result

/-- The loop over the segments, :236-281. -/
def segments : List Note → List Char → Out
  | [], result => .ok result
  | n :: l, result =>
    match loop n.bytes (n.align % 2 ^ 32) (n.bytes.length + 1) 0 result with
    | .fail => .fail
    | .stop => .ok []
    | .next result => segments l result

/-- `GetBuildId` -/
def getBuildId (l : List Note) : Out := segments l []

end Verif.ProfileProto.BuildId
