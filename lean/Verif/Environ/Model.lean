import Verif.Environ.Spec
/-! `thread_safe_getenv` (internal/environment.cc), byte by byte.  `none` is a read outside a string, which is undefined.
Simplified: `var_len` is an `int`; names of 2 GiB or more are left out. -/
namespace Verif.Environ

/-- Byte `i` of a string in memory: its bytes, then a NUL, then memory that is not its own (environment.cc:41). -/
def byteAt (s : Str) (i : Nat) : Option Nat :=
  if i < s.length then some (s.getD i 0) else if i = s.length then some 0 else none

/-- Whether `strncmp(s, t, n)` is 0, from byte `i` on (environment.cc:41; the C library's function). -/
def strncmpIs0 (s t : Str) : Nat → Nat → Option Bool
  | 0, _ => some true
  | n + 1, i => do
    let a ← byteAt s i
    let b ← byteAt t i
    if a ≠ b then some false else if a = 0 then some true else strncmpIs0 s t n (i + 1)

/-- The test of one entry, environment.cc:41, with its `&&`. -/
def matches? (e name : Str) : Option Bool := do
  let c ← strncmpIs0 e name name.length 0
  if c then
    let b ← byteAt e name.length
    some (b == 61)
  else some false

/-- The loop, environment.cc:40-44.  The pointer returned is shown as the string it points to. -/
def search (name : Str) : List Str → Option (Option Str)
  | [] => some none
  | e :: es => do
    let m ← matches? e name
    if m then some (some (e.drop (name.length + 1))) else search name es

/-- `thread_safe_getenv`, environment.cc:32-45; `environ` may be null. -/
def getenv (environ : Option (List Str)) (name : Str) : Option (Option Str) :=
  match environ with
  | none => some none
  | some env => search name env

end Verif.Environ
