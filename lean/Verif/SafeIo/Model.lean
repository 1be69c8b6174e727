/-!
The wrappers of system calls that ignore signals: internal/util.cc:45-135 and the macro of internal/util.h:33-40.

The kernel is a list of answers, one per system call, in the order of the calls; when the list is used up the caller is still
in the last call (`waiting`).  Simplified: the arguments of `open` are a record, errno is a variable of the calling thread that a
failing call sets and a succeeding call leaves alone, `absl::Duration` is a number of its units (a quarter of a nanosecond) or
infinite, and negative infinity is any negative duration.
-/
namespace Verif.SafeIo

/-- What the kernel answers: success with a number, or -1 and an errno. -/
inductive Ans where
  | ret (n : Nat)
  | err (e : Nat)
  deriving DecidableEq, Repr

def EINTR : Nat := 4

/-- What a call ends in; `ub` is an access outside the caller's buffer. -/
inductive Out (α : Type) where
  | ok (a : α)
  | waiting
  | ub
  deriving DecidableEq, Repr

/-- The arguments `open` is called with; the mode is passed only if the file may be created. -/
structure OpenCall where
  path : List Nat
  flags : Nat
  mode : Option Nat
  deriving DecidableEq, Repr

/-- `O_CREAT`, bit 6 of the flags. -/
def hasCreat (flags : Nat) : Bool := flags.testBit 6

structure Opened where
  rc : Int
  errno : Nat
  calls : List OpenCall
  rest : List Ans
  deriving DecidableEq, Repr

/-- The loop of `signal_safe_open`, util.cc:55-57. -/
def openLoop (path : List Nat) (flags mode : Nat) (calls : List OpenCall) (errno : Nat) : List Ans → Out Opened
  | [] => .waiting
  | a :: rest =>
    let calls := calls ++ [if hasCreat flags then ⟨path, flags, some mode⟩ else ⟨path, flags, none⟩]
    match a with
    | .ret n => .ok ⟨n, errno, calls, rest⟩
    | .err e => if e = EINTR then openLoop path flags mode calls e rest else .ok ⟨-1, e, calls, rest⟩

/-- `signal_safe_open`, util.cc:45-60. -/
def safeOpen (path : List Nat) (flags mode errno : Nat) (ans : List Ans) : Out Opened := openLoop path flags mode [] errno ans

/-- A write as the kernel sees it. -/
structure Wrote where
  rc : Int
  errno : Nat
  total : Nat
  out : List Nat
  rest : List Ans
  deriving DecidableEq, Repr

/-- The loop of `signal_safe_write`, util.cc:77-80.  `out` is what the file has taken; the kernel takes at most what it is offered.
Offering bytes beyond the end of the buffer is `ub`. -/
def writeLoop (buf : List Nat) (count : Nat) (out : List Nat) (total errno : Nat) : List Ans → Out Wrote
  | [] => .waiting
  | a :: rest =>
    let asked := count - total
    if total + asked > buf.length then .ub
    else
      match a with
      | .ret k =>
        let n := min k asked
        let out := out ++ (buf.drop total).take n
        let total := if n > 0 then total + n else total
        if n > 0 ∧ count > total then writeLoop buf count out total errno rest
        else .ok ⟨n, errno, total, out, rest⟩
      | .err e => if e = EINTR then writeLoop buf count out total e rest else .ok ⟨-1, e, total, out, rest⟩

/-- `signal_safe_write`, util.cc:72-85; `total` of the result is `*bytes_written`. -/
def safeWrite (buf : List Nat) (count : Nat) (out : List Nat) (errno : Nat) (ans : List Ans) : Out Wrote :=
  writeLoop buf count out 0 errno ans

/-- The inner loop of `signal_safe_poll`, util.cc:99-100. -/
def pollRetry (nfds errno : Nat) : List Ans → Out (Int × Nat × List Ans)
  | [] => .waiting
  | .ret k :: rest => .ok (min k nfds, errno, rest)
  | .err e :: rest => if e = EINTR then pollRetry nfds e rest else .ok (-1, e, rest)

theorem pollRetry_rest {nfds errno : Nat} {ans : List Ans} {r : Int × Nat × List Ans} (h : pollRetry nfds errno ans = .ok r) :
    r.2.2.length < ans.length := by
  fun_induction pollRetry nfds errno ans with
  | case1 => cases h
  | case2 errno k rest => cases h; simp
  | case3 errno rest ih => have := ih h; simp only [List.length_cons]; omega
  | case4 errno e rest _ => cases h; simp

/-- `absl::Milliseconds(1)` in units of a quarter of a nanosecond. -/
def kMs : Int := 4000000

/-- `elapsed <= timeout || timeout < absl::ZeroDuration()`, util.cc:95; `none` is `InfiniteDuration`. -/
def goesOn (timeout : Option Int) (elapsed : Int) : Bool :=
  match timeout with
  | none => true
  | some t => elapsed ≤ t || t < 0

structure Polled where
  rc : Int
  errno : Nat
  sleeps : Nat
  rest : List Ans
  deriving DecidableEq, Repr

/-- The outer loop of `signal_safe_poll`, util.cc:95-101; `sleeps` counts the sleeps of one millisecond. -/
def pollLoop (nfds : Nat) (timeout : Option Int) (elapsed rc : Int) (errno sleeps : Nat) (ans : List Ans) : Out Polled :=
  if goesOn timeout elapsed ∧ rc = 0 then
    let sleeps := if elapsed > 0 then sleeps + 1 else sleeps
    match _h : pollRetry nfds errno ans with
    | .ok r => pollLoop nfds timeout (elapsed + kMs) r.1 r.2.1 sleeps r.2.2
    | .waiting => .waiting
    | .ub => .ub
  else .ok ⟨rc, errno, sleeps, ans⟩
termination_by ans.length
decreasing_by exact pollRetry_rest _h

/-- `signal_safe_poll`, util.cc:87-104. -/
def safePoll (nfds : Nat) (timeout : Option Int) (errno : Nat) (ans : List Ans) : Out Polled :=
  pollLoop nfds timeout 0 0 errno 0 ans

theorem pollLoop_rest {nfds : Nat} {timeout : Option Int} {elapsed rc : Int} {errno sleeps : Nat} {ans : List Ans} {r : Polled}
    (h : pollLoop nfds timeout elapsed rc errno sleeps ans = .ok r) : r.rest.length ≤ ans.length := by
  fun_induction pollLoop nfds timeout elapsed rc errno sleeps ans with
  | case1 elapsed rc errno sleeps ans hg _ q hq ih => have := ih h; have := pollRetry_rest hq; omega
  | case2 => cases h
  | case3 => cases h
  | case4 => cases h; simp

/-- A read in progress: `src` is what the file has not delivered yet. -/
structure Reading where
  src : List Nat
  buf : List Nat
  total : Nat
  errno : Nat
  deriving DecidableEq, Repr

structure ReadEnd where
  rc : Int
  st : Reading
  rest : List Ans
  deriving DecidableEq, Repr

/-- `bytes` stored at `buf + i`. -/
def store (buf bytes : List Nat) (i : Nat) : List Nat := buf.take i ++ bytes ++ buf.drop (i + bytes.length)

/-- The end of `signal_safe_read`, util.cc:130-134. -/
def readEnd (rc : Int) (s : Reading) (rest : List Ans) : Out ReadEnd :=
  .ok ⟨if rc ≠ -1 ∨ s.errno = EINTR then s.total else rc, s, rest⟩

/-- The loop of `signal_safe_read`, util.cc:118-128.  The kernel delivers at most what it is asked for and what there is; storing
outside the buffer is `ub`. -/
def readLoop (count : Nat) (s : Reading) (ans : List Ans) : Out ReadEnd :=
  match ans with
  | [] => .waiting
  | a :: rest =>
    let asked := count - s.total
    let got : List Nat := match a with
      | .ret k => s.src.take (min k asked)
      | .err _ => []
    let rc : Int := match a with
      | .ret _ => got.length
      | .err _ => -1
    let errno := match a with
      | .ret _ => s.errno
      | .err e => e
    if s.total + got.length > s.buf.length then .ub
    else
      let s : Reading := ⟨s.src.drop got.length, store s.buf got s.total, if rc > 0 then s.total + got.length else s.total, errno⟩
      if rc = 0 then readEnd rc s rest
      else if s.total < count ∧ (rc > 0 ∨ s.errno = EINTR) then
        match _h : safePoll 1 (some 0) s.errno rest with
        | .ok p =>
          let s := { s with errno := p.errno }
          if p.rc = 1 ∨ s.total = 0 then readLoop count s p.rest else readEnd rc s p.rest
        | .waiting => .waiting
        | .ub => .ub
      else readEnd rc s rest
termination_by ans.length
decreasing_by
  have := pollLoop_rest _h
  simp only [List.length_cons]
  omega

/-- `signal_safe_read`, util.cc:106-135; `st.total` of the result is `*bytes_read`. -/
def safeRead (src buf : List Nat) (count errno : Nat) (ans : List Ans) : Out ReadEnd := readLoop count ⟨src, buf, 0, errno⟩ ans

/-- One turn of the kernel in `close`: the descriptors other threads opened since the last one, and whether a signal arrives
while the file is flushed.  Linux frees the descriptor first, so that an interrupted `close` has closed it. -/
structure Turn where
  opens : List (Nat × Nat)
  signal : Bool
  deriving DecidableEq, Repr

/-- `EBADF`. -/
def EBADF : Nat := 9

/-- Who holds each descriptor. -/
abbrev Table := List (Nat × Nat)

/-- Another thread opens descriptor `f`, if it is free. -/
def Table.opened (t : Table) (f : Nat × Nat) : Table := if t.any (·.1 = f.1) then t else t ++ [f]

structure Closed where
  rc : Int
  errno : Nat
  table : Table
  deriving DecidableEq, Repr

/-- `signal_safe_close`, util.cc:62-70, against that kernel. -/
def safeClose (fd errno : Nat) (t : Table) : List Turn → Out Closed
  | [] => .waiting
  | w :: rest =>
    let t := w.opens.foldl Table.opened t
    if t.any (·.1 = fd) then
      let t := t.filter (·.1 ≠ fd)
      if w.signal then safeClose fd EINTR t rest else .ok ⟨0, errno, t⟩
    else .ok ⟨-1, EBADF, t⟩

end Verif.SafeIo
