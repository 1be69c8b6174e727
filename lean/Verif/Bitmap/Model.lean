/-
Model of `Bitmap<N>` from /repo/tcmalloc/internal/range_tracker.h, word by word.

A bitmap is the list of its 64-bit words (`bits_`, range_tracker.h:106).  `N` is the template
parameter.  `none` is undefined behaviour: an access to a word outside `bits_`, a shift by 64 or
more, or a violated `TC_ASSERT`/`ASSUME`.
-/
namespace Verif.Bitmap

/-- `size_t` on the 64-bit targets. -/
abbrev Word := BitVec 64

/-- `kWords`, range_tracker.h:103. -/
def kWords (N : Nat) : Nat := (N + 63) / 64

/-- `absl::countr_zero` (C++20 `std::countr_zero`). -/
def ctz (w : Word) : Nat :=
  match (List.range 64).find? (fun k => w.getLsbD k) with
  | some k => k
  | none => 64

/-- `absl::bit_width` (C++20 `std::bit_width`). -/
def bitWidth (w : Word) : Nat :=
  match (List.range 64).reverse.find? (fun k => w.getLsbD k) with
  | some k => k + 1
  | none => 0

/-- `absl::popcount`. -/
def popcount (w : Word) : Nat := (List.range 64).countP (fun k => w.getLsbD k)

/-- The constructor and `Clear()`, range_tracker.h:40 and 518-523. -/
def empty (N : Nat) : List Word := List.replicate (kWords N) 0#64

/-- The mask computed by `CountWordBits`/`SetWordBits`, range_tracker.h:350 and 367. -/
def rangeMask (frm to : Nat) : Word := (BitVec.allOnes 64 >>> (64 - (to - frm))) <<< frm

/-- `Bitmap::GetBit`, range_tracker.h:376-383. -/
def getBit (N : Nat) (ws : List Word) (i : Nat) : Option Bool :=
  if i < N then
    match ws[i / 64]? with
    | none => none
    | some w => some (w &&& (1#64 <<< (i % 64)) != 0#64)
  else none

/-- `Bitmap::SetBit` (returns the old bit), range_tracker.h:385-395. -/
def setBit (N : Nat) (ws : List Word) (i : Nat) : Option (List Word × Bool) :=
  if i < N then
    match ws[i / 64]? with
    | none => none
    | some w => some (ws.set (i / 64) (w ||| (1#64 <<< (i % 64))), w &&& (1#64 <<< (i % 64)) != 0#64)
  else none

/-- `Bitmap::ClearBit` (returns the old bit), range_tracker.h:397-407. -/
def clearBit (N : Nat) (ws : List Word) (i : Nat) : Option (List Word × Bool) :=
  if i < N then
    match ws[i / 64]? with
    | none => none
    | some w =>
      some (ws.set (i / 64) (w &&& ~~~(1#64 <<< (i % 64))), w &&& (1#64 <<< (i % 64)) != 0#64)
  else none

/-- `Bitmap::SetWordBits<Value>`, range_tracker.h:357-374. -/
def setWordBits (v : Bool) (ws : List Word) (i frm to : Nat) : Option (List Word) :=
  if frm < to ∧ to ≤ 64 then
    match ws[i]? with
    | none => none
    | some w => some (ws.set i (if v then w ||| rangeMask frm to else w &&& ~~~(rangeMask frm to)))
  else none

/-- The `while (n > 0)` loop of `SetRangeValue`, range_tracker.h:477-483. -/
def setRangeRest (v : Bool) (ws : List Word) (word n : Nat) : Option (List Word) :=
  if n > 0 then
    match setWordBits v ws (word + 1) 0 (min n 64) with
    | none => none
    | some ws' => setRangeRest v ws' (word + 1) (n - min n 64)
  else some ws
termination_by n

/-- `Bitmap::SetRangeValue<Value>`, range_tracker.h:467-484. -/
def setRangeValue (v : Bool) (N : Nat) (ws : List Word) (index n : Nat) : Option (List Word) :=
  if index + n ≤ N then
    match setWordBits v ws (index / 64) (index % 64) (min (index % 64 + n) 64) with
    | none => none
    | some ws' => setRangeRest v ws' (index / 64) (n - (min (index % 64 + n) 64 - index % 64))
  else none

/-- `Bitmap::CountWordBits`, range_tracker.h:341-355. -/
def countWordBits (ws : List Word) (i frm to : Nat) : Option Nat :=
  if frm < to ∧ to ≤ 64 then
    match ws[i]? with
    | none => none
    | some w => some (popcount (w &&& rangeMask frm to))
  else none

/-- The `while (n > 0)` loop of `CountBits`, range_tracker.h:427-432. -/
def countRest (ws : List Word) (word n count : Nat) : Option Nat :=
  if n > 0 then
    match countWordBits ws (word + 1) 0 (min n 64) with
    | none => none
    | some c => countRest ws (word + 1) (n - min n 64) (count + c)
  else some count
termination_by n

/-- `Bitmap::CountBits(index, n)`, range_tracker.h:414-435. -/
def countBits (N : Nat) (ws : List Word) (index n : Nat) : Option Nat :=
  if index + n ≤ N then
    if n = 0 then some 0
    else
      match countWordBits ws (index / 64) (index % 64) (min (index % 64 + n) 64) with
      | none => none
      | some c => countRest ws (index / 64) (n - (min (index % 64 + n) 64 - index % 64)) c
  else none

/-- `Bitmap::IsZero`, range_tracker.h:437-445. -/
def isZero (ws : List Word) : Bool := ws.all (· == 0#64)

/-- `Bitmap::ClearLowestBit`, range_tracker.h:457-465. -/
def clearLowestBit : List Word → List Word
  | [] => []
  | w :: ws => if w ≠ 0#64 then (w &&& (w - 1#64)) :: ws else w :: clearLowestBit ws

/-- The inner loop of `PopBatch`, range_tracker.h:70-75: pops from one word.  Returns the new
word and the visited offsets. `room` is `limit - count`. -/
def popWord (w : Word) : Nat → Word × List Nat
  | 0 => (w, [])
  | room + 1 =>
    if w ≠ 0#64 then
      let (w', l) := popWord (w &&& (w - 1#64)) room
      (w', ctz w :: l)
    else (w, [])

/-- `Bitmap::PopBatch`, range_tracker.h:64-79; `i` is the word index, `room` is
`limit - count`; returns the new words and the visited bit numbers in order. -/
def popBatch : List Word → Nat → Nat → List Word × List Nat
  | [], _, _ => ([], [])
  | w :: ws, i, room =>
    if room = 0 then (w :: ws, [])
    else
      let (w', l) := popWord w room
      let (ws', l') := popBatch ws (i + 1) (room - l.length)
      (w' :: ws', l.map (i * 64 + ·) ++ l')

/-- `FindValue` looks at the word itself or at its complement, range_tracker.h:575, 583. -/
def pick (goal : Bool) (w : Word) : Word := if goal then w else ~~~w

/-- The loop and tail of `FindValue<Goal>`, range_tracker.h:578-605. -/
def findLoop (goal : Bool) (N : Nat) (ws : List Word) (word : Nat) (here : Word) : Option Nat :=
  if here = 0#64 then
    if word + 1 ≥ kWords N then some N
    else
      match ws[word + 1]? with
      | none => none
      | some w => findLoop goal N ws (word + 1) (pick goal w)
  else
    let ret := ctz here + word * 64
    if N % 64 ≠ 0 then
      if goal then (if ret < N then some ret else none)
      else some (if ret > N then N else ret)
    else some ret
termination_by kWords N - word

/-- `Bitmap::FindValue<Goal>`, range_tracker.h:567-606. -/
def findValue (goal : Bool) (N : Nat) (ws : List Word) (index : Nat) : Option Nat :=
  if index < N then
    match ws[index / 64]? with
    | none => none
    | some w =>
      findLoop goal N ws (index / 64) (pick goal w &&& (BitVec.allOnes 64 <<< (index % 64)))
  else none

/-- `FindSet`, range_tracker.h:498-501. -/
def findSet := findValue true
/-- `FindClear`, range_tracker.h:503-506. -/
def findClear := findValue false

/-- The loop and tail of `FindValueBackwards<Goal>`, range_tracker.h:618-630. -/
def findBackLoop (goal : Bool) (ws : List Word) : Nat → Word → Option Int
  | 0, here => if here = 0#64 then some (-1) else some (bitWidth here - 1 : Nat)
  | word + 1, here =>
    if here = 0#64 then
      match ws[word]? with
      | none => none
      | some w => findBackLoop goal ws word (pick goal w)
    else some ((bitWidth here - 1 + (word + 1) * 64 : Nat) : Int)

/-- `Bitmap::FindValueBackwards<Goal>`, range_tracker.h:607-631. -/
def findValueBackwards (goal : Bool) (N : Nat) (ws : List Word) (index : Nat) : Option Int :=
  if index < N then
    match ws[index / 64]? with
    | none => none
    | some w =>
      findBackLoop goal ws (index / 64) (pick goal w &&& ((2#64 <<< (index % 64)) - 1#64))
  else none

/-- `Bitmap::NextFreeRange`, range_tracker.h:486-496; outer `none` is undefined behaviour, inner
`none` is `return false`. -/
def nextFreeRange (N : Nat) (ws : List Word) (start : Nat) : Option (Option (Nat × Nat)) :=
  if start ≥ N then some none
  else
    match findClear N ws start with
    | none => none
    | some i =>
      if i = N then some none
      else
        match findSet N ws i with
        | none => none
        | some j => some (some (i, j - i))

/-- `operator~`, range_tracker.h:526-536. -/
def complement (N : Nat) (ws : List Word) : List Word :=
  let r := ws.map (~~~·)
  if 64 * kWords N - N > 0 then
    r.modify (kWords N - 1) (· &&& (BitVec.allOnes 64 >>> (64 * kWords N - N)))
  else r

/-- `operator&`, range_tracker.h:540-547. -/
def band (a b : List Word) : List Word := List.zipWith (· &&& ·) a b
/-- `operator|`, range_tracker.h:549-556. -/
def bor (a b : List Word) : List Word := List.zipWith (· ||| ·) a b
/-- `operator^`, range_tracker.h:558-565. -/
def bxor (a b : List Word) : List Word := List.zipWith (· ^^^ ·) a b

/-- The loop of `Scale`, range_tracker.h:658-664. -/
def scaleLoop (N M : Nat) (src : List Word) (srcLen srcPerDst dstPerSrc required : Nat)
    (srcIdx dstIdx : Nat) (res : List Word) : Option (List Word) :=
  if _h : srcIdx < srcLen ∧ 0 < srcPerDst then
    match countBits N src srcIdx srcPerDst with
    | none => none
    | some count =>
      if count ≥ required then
        match setRangeValue true M res dstIdx dstPerSrc with
        | none => none
        | some res' =>
          scaleLoop N M src srcLen srcPerDst dstPerSrc required (srcIdx + srcPerDst)
            (dstIdx + dstPerSrc) res'
      else
        scaleLoop N M src srcLen srcPerDst dstPerSrc required (srcIdx + srcPerDst)
          (dstIdx + dstPerSrc) res
  else some res
termination_by srcLen - srcIdx

/-- `Scale<M>(src, src_len, op)`, range_tracker.h:643-666; `all` is `op == kAll`. -/
def scale (N M : Nat) (src : List Word) (srcLen : Nat) (all : Bool) : Option (List Word) :=
  if srcLen ≤ N ∧ 0 < srcLen ∧ (srcLen % M = 0 ∨ M % srcLen = 0) then
    scaleLoop N M src srcLen (max 1 (srcLen / M)) (max 1 (M / srcLen))
      (if all then max 1 (srcLen / M) else 1) 0 0 (empty M)
  else none

end Verif.Bitmap
