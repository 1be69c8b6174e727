/-!
The thread that maintains the allocator in the background: `MallocExtension_Internal_ProcessBackgroundActions`,
/repo/tcmalloc/background.cc:36-206.

Times and durations are whole nanoseconds (`absl::Now` and the sleep interval, parameters.cc:88 and 414-418, are).  `double`
arithmetic is exact arithmetic on rationals followed by a rounding function.  Simplified: `MarkThreadIdle`, the mutex and the
sleep are left out; what the actions do is modelled with the components they act on, here they are names.
-/
namespace Verif.Background

/-- What a pass may do, background.cc:121-200. -/
inductive Action where
  | drain
  | shuffle
  | resizeClasses
  | resizeMaxCapacity
  | resizeSlab
  | clearTouched
  | plunderSharded
  | plunder
  | resizeTransfer
  | treat (collapse : Bool)
  | release (bytes : Int)
  deriving DecidableEq, Repr

/-- What a pass reads: the clock, the parameters, and how the allocator was built. -/
structure Env where
  now : Int
  sleep : Int
  rate : Nat
  perCpu : Bool
  fast : Bool
  maxCapacity : Bool
  dynamicSlab : Bool
  smallButSlow : Bool
  collapse : Bool
  region : Bool
  deriving DecidableEq, Repr

/-- The local variables, background.cc:42-53. -/
structure State where
  prev : Int
  drain : Int
  shuffle : Int
  resizeClasses : Int
  resizeMaxCapacity : Int
  resizeSlab : Int
  plunder : Int
  resizeTransfer : Int
  treat : Int
  deriving DecidableEq, Repr

/-- background.cc:42-53. -/
def State.init (now : Int) : State := ⟨now, now, now, now, now, now, now, now, now⟩

/-- What a pass ends in: `fail` is a failed check, `ub` undefined behaviour. -/
inductive Out (α : Type) where
  | ok (a : α)
  | fail
  | ub
  deriving DecidableEq, Repr

/-- The conversion of a `double` to `ssize_t`: towards zero, undefined out of range. -/
def toSsize (x : Rat) : Option Int :=
  let n := if 0 ≤ x then x.floor else x.ceil
  if -(2 ^ 63) ≤ n ∧ n < 2 ^ 63 then some n else none

/-- `std::numeric_limits<ssize_t>::max()`. -/
def ssizeMax : Int := 2 ^ 63 - 1

/-- `calculated_bytes`, background.cc:180-182: the rate and the seconds are converted to `double` and multiplied. -/
def calculated (rnd : Rat → Rat) (rate : Nat) (elapsed : Int) : Rat := rnd (rnd rate * rnd (elapsed / 1000000000))

/-- `bytes_to_release`, background.cc:183-189.  The branches of the conditional are a `ssize_t` and a `double`, so that its value
is a `double`: the maximum is converted to `double`, which rounds it up to 2^63, before the result is converted to `ssize_t`. -/
def toRelease (conv : Rat → Option Int) (rnd : Rat → Rat) (rate : Nat) (elapsed : Int) : Option Int :=
  let c := calculated rnd rate elapsed
  let kMaxSsize := rnd ssizeMax
  (conv (if c ≥ kMaxSsize then rnd ssizeMax else c)).map (max · 0)

/-- `if (now - last >= period) { action; last = now; }`. -/
def due (on : Bool) (now last period : Int) (a : Action) : Int × List Action :=
  if on ∧ now - last ≥ period then (now, [a]) else (last, [])

/-- One pass, background.cc:61-203. -/
def pass (conv : Rat → Option Int) (rnd : Rat → Rat) (e : Env) (s : State) : Out (State × List Action) :=
  if e.perCpu ∧ ¬ e.fast then .fail
  else
    let dr := due e.perCpu e.now s.drain (30 * e.sleep) .drain
    let sh := due e.perCpu e.now s.shuffle (5 * e.sleep) .shuffle
    let rc := due e.perCpu e.now s.resizeClasses (2 * e.sleep) .resizeClasses
    let rm := due (e.perCpu && e.maxCapacity) e.now s.resizeMaxCapacity (29 * e.sleep) .resizeMaxCapacity
    let rs := due (e.perCpu && e.dynamicSlab) e.now s.resizeSlab (29 * e.sleep) .resizeSlab
    let ct := if e.perCpu then [Action.clearTouched] else []
    let pl := due (!e.smallButSlow) e.now s.plunder (5 * e.sleep) .plunder
    let rt := due (!e.smallButSlow) e.now s.resizeTransfer (2 * e.sleep) .resizeTransfer
    let tr := due true e.now s.treat (5 * e.sleep) (.treat e.collapse)
    match toRelease conv rnd e.rate (e.now - s.prev) with
    | none => .ub
    | some bytes =>
      let rl := if bytes > 0 ∨ e.region then [Action.release bytes] else []
      .ok (⟨e.now, dr.1, sh.1, rc.1, rm.1, rs.1, pl.1, rt.1, tr.1⟩,
        dr.2 ++ sh.2 ++ rc.2 ++ rm.2 ++ rs.2 ++ ct ++ [.plunderSharded] ++ pl.2 ++ rt.2 ++ tr.2 ++ rl)

/-- The loop, background.cc:61-205: each pass with what it did.  It ends when the actions are switched off, here at the end of the
list. -/
def passes (conv : Rat → Option Int) (rnd : Rat → Rat) : List Env → State → Out (State × List (Env × List Action))
  | [], s => .ok (s, [])
  | e :: l, s =>
    match pass conv rnd e s with
    | .fail => .fail
    | .ub => .ub
    | .ok (s, as) =>
      match passes conv rnd l s with
      | .fail => .fail
      | .ub => .ub
      | .ok (s, h) => .ok (s, (e, as) :: h)

/-- `MallocExtension_Internal_ProcessBackgroundActions`, started at `start`. -/
def background (conv : Rat → Option Int) (rnd : Rat → Rat) (start : Int) (l : List Env) : Out (List (Env × List Action)) :=
  match passes conv rnd l (State.init start) with
  | .fail => .fail
  | .ub => .ub
  | .ok (_, h) => .ok h

end Verif.Background
