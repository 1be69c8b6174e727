/-!
# Signals: what a program and the system do without the allocator's handler (C84)

Only what POSIX and Linux say about `SIGSEGV` and `SIGTRAP`; nothing of the allocator.
-/
namespace Verif.Signals

inductive Sig where
  | segv | trap
  deriving DecidableEq, Repr

def Sig.num : Sig → Nat
  | .segv => 11
  | .trap => 5

/-- The address in a `struct sigaction`: `SIG_DFL` (0), `SIG_IGN` (1) or a function. -/
inductive Who where
  | dfl
  | ign
  | fn (h : Nat)
  deriving DecidableEq, Repr

/-- A `struct sigaction`: the flags `SA_SIGINFO`, `SA_ONSTACK`, `SA_RESETHAND`, `SA_NODEFER`, and the further signals to
block. -/
structure Action where
  who : Who
  info : Bool
  onStack : Bool
  resetHand : Bool
  noDefer : Bool
  mask : List Nat
  deriving DecidableEq, Repr

/-- A signal on its way to a thread. -/
structure Fault where
  sig : Sig
  /-- raised by the thread's own instruction, not sent by someone -/
  forced : Bool
  /-- `si_addr` -/
  addr : Nat
  /-- the page-fault error code in the context (x86: bit 1 is set for a write); `none` without a context -/
  err : Option Nat
  /-- the thread's stack has no room for a handler -/
  stackFull : Bool
  /-- the thread has an alternate signal stack -/
  altStack : Bool
  deriving DecidableEq, Repr

/-- What becomes of a signal. -/
inductive Out where
  | killed
  | ignored
  /-- the instruction that faulted is run again, with nothing changed -/
  | again
  /-- the program's handler is called, with `siginfo_t` and context if `full`, and these signals blocked -/
  | ran (h : Nat) (full : Bool) (blocked : List Nat)
  deriving DecidableEq, Repr

/-- What the system does with a signal for which the program has set up `a`, and the action left in place. -/
def direct (a : Action) (f : Fault) : Action × Out :=
  match a.who with
  | .dfl => (a, .killed)
  /- a signal the thread itself raised cannot be ignored -/
  | .ign => if f.forced then (a, .killed) else (a, .ignored)
  | .fn h =>
    if f.stackFull ∧ ¬(a.onStack ∧ f.altStack) then (a, .killed)
    else (if a.resetHand then { a with who := .dfl } else a,
      .ran h a.info ((if a.noDefer then [] else [f.sig.num]) ++ a.mask))

/-- What happens in the process, as far as these signals go. -/
inductive Op where
  /-- a signal is delivered -/
  | fault (f : Fault)
  /-- the program calls `sigaction` -/
  | set (g : Sig) (a : Action)
  /-- the thread inside `ActivateGuardedSampling` takes its next step -/
  | activate
  deriving DecidableEq, Repr

def updS {α : Type} (t : Sig → α) (g : Sig) (x : α) : Sig → α := fun g' => if g' = g then x else t g'

/-- What becomes of each signal without the allocator's handler. -/
def without (t : Sig → Action) : List Op → List Out
  | [] => []
  | .fault f :: ops =>
    let r := direct (t f.sig) f
    r.2 :: (if r.2 = .killed then [] else without (updS t f.sig r.1) ops)
  | .set g a :: ops => without (updS t g a) ops
  | .activate :: ops => without t ops

/-- The way the program has set up the signal leaves nothing that forwarding cannot keep: no one-shot handler, no need of
the alternate stack, no further signals to block or not to block, and no ignoring of what cannot be ignored. -/
def Plain (a : Action) (f : Fault) : Prop :=
  a.resetHand = false ∧ a.noDefer = false ∧ a.mask = [] ∧ (f.stackFull = true → ¬(a.onStack = true ∧ f.altStack = true)) ∧
    (a.who = .ign → f.forced = false ∧ f.stackFull = false ∧ a.info = false)

end Verif.Signals
