import Verif.Signals.Spec
import Verif.Guarded.Model
/-!
# Signals: the allocator's handler

segv_handler.cc.  The guarded pages themselves are the `Guarded` component's.
-/
namespace Verif.Signals

/-- What `SegvHandler` prints: the slot, the name given to `RecordCrash`, whether the access was a write
(`WriteFlagToString`), and whether the stack of the free is printed too. -/
structure Report where
  slot : Nat
  crash : String
  write : Option Bool
  freeStack : Bool
  deriving DecidableEq, Repr

/-- `ExtractWriteFlagFromContext`, segv_handler.cc:76-95, on x86: `PF_WRITE` is `1U << 1`. -/
def writeFlag : Option Nat → Option Bool
  | none => none
  | some v => some (decide (v &&& (1 <<< 1) ≠ 0))

/-- `SegvHandler`, segv_handler.cc:144-213.  `RefineErrorTypeBasedOnWriteFlag` (lines 97-134) splits the error types by
the write flag, and the switch of lines 169-206 treats the parts alike; only the flag printed tells them apart.
Not modelled: the stacks printed, thread ids, and `GetAllocationOffsetAndSize`. -/
def segvHandler (c : Guarded.Cfg) (s : Guarded.S) (f : Fault) : Option Report :=
  if f.sig ≠ .segv then none
  else if c.mine f.addr = false then none
  else
    match Guarded.report c s f.addr with
    | none => none
    | some (slot, e) =>
      match e with
      | .unknown => none
      | .useAfterFree => some ⟨slot, "use-after-free", writeFlag f.err, true⟩
      | .underflow => some ⟨slot, "buffer-underflow", writeFlag f.err, false⟩
      | .overflow => some ⟨slot, "buffer-overflow", writeFlag f.err, false⟩
      | .doubleFree => some ⟨slot, "double-free", none, true⟩
      | .overflowOnDealloc => some ⟨slot, "buffer-overflow-detected-at-free", none, false⟩

/-- What the system has for a signal: `HandleSegvAndForward`, or an action of the program's. -/
inductive Slot where
  | mine
  | prog (a : Action)
  deriving DecidableEq, Repr

/-- A `struct sigaction` of zeros, as the static `old_segv_sa` and `old_trap_sa` start out (segv_handler.cc:214-215). -/
def zeroAction : Action := ⟨.dfl, false, false, false, false, []⟩

structure W where
  /-- the system's table -/
  tab : Sig → Slot
  /-- `old_segv_sa`, `old_trap_sa` -/
  old : Sig → Action
  /-- what `sigaction` is about to store there -/
  ret : Action
  /-- how far `MallocExtension_Internal_ActivateGuardedSampling` has come -/
  stage : Nat

def W.init (t : Sig → Action) : W := ⟨fun g => .prog (t g), fun _ => zeroAction, zeroAction, 0⟩

/-- `ForwardSignal`, segv_handler.cc:217-233, in a handler entered with only its own signal blocked.  The flag is looked
at before the address, so `SIG_DFL` and `SIG_IGN` with `SA_SIGINFO` are called as functions: the fault this raises is
blocked, which kills the process. -/
def forward (w : W) (f : Fault) : W × Out :=
  let o := w.old f.sig
  if o.info then
    match o.who with
    | .fn h => (w, .ran h true [f.sig.num])
    | _ => (w, .killed)
  else
    match o.who with
    /- lines 221-228: the old action is put back, and the raised signal waits until the handler returns -/
    | .dfl => ({ w with tab := updS w.tab f.sig (.prog o) }, .killed)
    /- line 230: the handler returns, and so does an instruction that faulted -/
    | .ign => (w, if f.forced then .again else .ignored)
    | .fn h => (w, .ran h false [f.sig.num])

/-- A signal is delivered: to the program as ever, or to `HandleSegvAndForward` (lines 235-238), installed without
`SA_ONSTACK` (line 246). -/
def deliver (c : Guarded.Cfg) (s : Guarded.S) (w : W) (f : Fault) : W × Option Report × Out :=
  match w.tab f.sig with
  | .prog a =>
    let r := direct a f
    ({ w with tab := updS w.tab f.sig (.prog r.1) }, none, r.2)
  | .mine =>
    if f.stackFull then (w, none, .killed)
    else
      let r := forward w f
      (r.1, segvHandler c s f, r.2)

def actionOf : Slot → Action
  | .prog a => a
  | .mine => zeroAction

/-- `MallocExtension_Internal_ActivateGuardedSampling`, lines 240-251, run once.  `sigaction` installs the new action in
one step, and its library wrapper stores the old one in the next. -/
def activate (w : W) : W :=
  match w.stage with
  | 0 => { w with tab := updS w.tab .segv .mine, ret := actionOf (w.tab .segv), stage := 1 }
  | 1 => { w with old := updS w.old .segv w.ret, stage := 2 }
  | 2 => { w with tab := updS w.tab .trap .mine, ret := actionOf (w.tab .trap), stage := 3 }
  | 3 => { w with old := updS w.old .trap w.ret, stage := 4 }
  | _ => w

/-- What becomes of each signal with the allocator's handler; `g` says how the guarded pages stand at each. -/
def withHandler (c : Guarded.Cfg) (g : Nat → Guarded.S) (w : W) : List Op → List Out
  | [] => []
  | .fault f :: ops =>
    let r := deliver c (g 0) w f
    r.2.2 :: (if r.2.2 = .killed then [] else withHandler c (fun n => g (n + 1)) r.1 ops)
  | .set sg a :: ops => withHandler c g { w with tab := updS w.tab sg (.prog a) } ops
  | .activate :: ops => withHandler c g (activate w) ops

/-- The handler is installed and what it replaced is not yet stored. -/
def window (w : W) (sg : Sig) : Bool :=
  match sg with
  | .segv => w.stage == 1
  | .trap => w.stage == 3

/-- The runs forwarding is good for: where a signal finds the allocator's handler, the program's own set-up is plain, and
activation is not just at the step between installing the handler and storing the old one. -/
def Fair (c : Guarded.Cfg) (g : Nat → Guarded.S) (w : W) (t : Sig → Action) : List Op → Prop
  | [] => True
  | .fault f :: ops =>
    (w.tab f.sig = .mine → Plain (t f.sig) f ∧ window w f.sig = false) ∧
      Fair c (fun n => g (n + 1)) (deliver c (g 0) w f).1 (updS t f.sig (direct (t f.sig) f).1) ops
  | .set sg a :: ops => Fair c g { w with tab := updS w.tab sg (.prog a) } (updS t sg a) ops
  | .activate :: ops => Fair c g (activate w) t ops

end Verif.Signals
