import Verif.StatsText.Model
/-
What a reader of the statistics relies on, stated without the printer.
-/
namespace Verif.StatsText

/-- The text a call is meant to contribute. -/
def Op.text : Op → List Char
  | .printf s => s
  | .printfFail s => s
  | .append ps => ps.flatten

/-- The whole text of a sequence of calls. -/
def textOf (ops : List Op) : List Char := ops.flatMap Op.text

/-- The call formats without error, and its text is shorter than `2 ^ 31`, the largest `int`. -/
def Op.Sound : Op → Prop
  | .printf s => s.length < 2147483648
  | .printfFail _ => False
  | .append _ => True

/-- Human-readable statistics are written with `printf` alone. -/
def Op.IsPrintf : Op → Prop
  | .printf _ => True
  | _ => False

/-- `b` starts with the first `k` bytes of `text`, for some `k` within both; that is all of `text`
if it is shorter than the buffer. -/
def HoldsPrefix (b : List Char) (text : List Char) : Prop :=
  ∃ k, k ≤ b.length ∧ k ≤ text.length ∧ b.take k = text.take k ∧
    (text.length < b.length → k = text.length)

/-- What malloc_extension.h:386-397 asks of a factory: given a buffer it writes only there, it
returns the length of its text, and what it leaves in the buffer is the text, cut off if the text
is too long. -/
def Reports (fac : Factory) (text : List Char) : Prop :=
  ∀ span, (fac span).1.length = span.length ∧ (fac span).2 = text.length ∧
    HoldsPrefix (fac span).1 text

/-- The text of one attempt of `GetStats`, with `d` the statistics at the level of detail used. -/
def fullText (d : List Op) (releaseErrors : Nat) (facText : List Char) : List Char :=
  textOf d ++ "\nLow-level allocator stats:\n".toList ++ "Memory Release Failures: ".toList ++
    (toString releaseErrors).toList ++ "\n".toList ++ facText

end Verif.StatsText
