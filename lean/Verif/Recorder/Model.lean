/-!
`SampleRecorder` (tcmalloc/internal/sampled_allocation_recorder.h): the list of sampled allocations behind heap profiles.
`all_` is a list that only grows, without a lock; the dead samples are kept in the circular list of the graveyard for reuse.

Addresses are numbers; 0 is `nullptr`, 1 the graveyard.  What a sample holds (`sampled_stack`) is one number.  Memory is sequentially
consistent.  A region under the graveyard's and a sample's lock, or under a sample's lock alone, is one step: all
accesses to `dead` and to the contents of published samples are made under the sample's lock, and locks are taken and released in
two phases.  `UnregisterAll` holds the graveyard's lock over many such regions and is many steps.
-/
namespace Verif.Recorder

def G : Nat := 1

/-- What a thread is doing. -/
inductive Th
  | idle
  /-- `Register(d)`: no dead sample, before `allocator_->New`, sampled_allocation_recorder.h:199. -/
  | want (d : Nat)
  /-- `PushNew` before `all_.load`, :156. -/
  | made (p d : Nat)
  /-- `PushNew` before the next `compare_exchange_weak`, :157. -/
  | push (p d : Nat)
  /-- `PushDead` after the callback, before the locks, :169. -/
  | dying (p : Nat)
  /-- `Iterate`, at sample `s`; what it has reported, :230-240. -/
  | iter (s : Nat) (out : List (Nat × Nat))
  /-- `UnregisterAll`, at sample `s`; `dispose` as loaded, :211-227. -/
  | sweep (s : Nat) (cb : Option Nat)
  deriving DecidableEq

structure St where
  /-- `all_` -/
  all : Nat
  /-- the fields of samples; `dead G` is `graveyard_.dead` -/
  next : Nat → Nat
  dead : Nat → Nat
  data : Nat → Nat
  /-- samples the allocator has handed out -/
  used : List Nat
  /-- `dispose_` -/
  cb : Option Nat
  /-- the graveyard's lock is held by `UnregisterAll` -/
  gl : Option Nat
  th : Nat → Th

def upd {α : Type} (f : Nat → α) (i : Nat) (v : α) : Nat → α := fun x => if x = i then v else f x

/-- The constructor, :138-142. -/
def init : St := ⟨0, fun _ => 0, fun x => if x = G then G else 0, fun _ => 0, [], none, none, fun _ => .idle⟩

inductive Ev
  /-- `Register(d)` is called; `PopDead`. -/
  | register (t d : Nat)
  /-- `allocator_->New` returns `p`. -/
  | new (t p : Nat)
  | load (t : Nat)
  /-- `compare_exchange_weak`; it may fail for no reason. -/
  | cas (t : Nat) (spurious : Bool)
  /-- `Unregister(p)` is called; the callback. -/
  | unregister (t p : Nat)
  /-- The locked region of `PushDead`. -/
  | bury (t : Nat)
  | setDispose (f : Option Nat)
  /-- `Iterate` is called: `all_.load`. -/
  | iterate (t : Nat)
  /-- One sample, or the end of the list. -/
  | visit (t : Nat)
  /-- `UnregisterAll` is called. -/
  | clear (t : Nat)
  /-- One sample, or the end of the list. -/
  | sweep (t : Nat)
  deriving DecidableEq

inductive Out
  | none
  | registered (t p d : Nat)
  /-- The callback `f` is called with sample `p` holding `d`. -/
  | disposed (t f p d : Nat)
  /-- `Unregister(p)` has returned, or `UnregisterAll` has unregistered `p`, calling the callback with what it holds. -/
  | buried (t p : Nat) (cb : Option (Nat × Nat))
  | was (f : Option Nat)
  /-- `Iterate` has called its argument with these samples, and returns. -/
  | profile (t : Nat) (l : List (Nat × Nat))
  | cleared (t : Nat)
  deriving DecidableEq

/-- One step; `none`: not possible now. -/
def step (s : St) : Ev → Option (St × Out)
  -- `Register`, :195-197, and `PopDead`, :177-191; `PrepareForSampling`, sampled_allocation.h:50-53
  | .register t d =>
    match s.th t, s.gl with
    | .idle, none =>
      let p := s.dead G
      if p = G then some ({ s with th := upd s.th t (.want d) }, .none)
      else some ({ s with dead := upd (upd s.dead G (s.dead p)) p 0, data := upd s.data p d }, .registered t p d)
    | _, _ => none
  -- :199; the constructor, sampled_allocation.h:38-40
  | .new t p =>
    match s.th t with
    | .want d => some ({ s with used := p :: s.used, next := upd s.next p 0, dead := upd s.dead p 0, data := upd s.data p d,
                                th := upd s.th t (.made p d) }, .none)
    | _ => none
  -- `PushNew`, :156
  | .load t =>
    match s.th t with
    | .made p d => some ({ s with next := upd s.next p s.all, th := upd s.th t (.push p d) }, .none)
    | _ => none
  -- :157-160, and the end of `Register`, :203
  | .cas t spurious =>
    match s.th t with
    | .push p d =>
      if s.all = s.next p ∧ spurious = false then some ({ s with all := p, th := upd s.th t .idle }, .registered t p d)
      else some ({ s with next := upd s.next p s.all }, .none)
    | _ => none
  -- `Unregister`, :207-209; `PushDead`, :164-167
  | .unregister t p =>
    match s.th t with
    | .idle => some ({ s with th := upd s.th t (.dying p) },
        match s.cb with
        | none => .none
        | some f => .disposed t f p (s.data p))
    | _ => none
  -- :169-172
  | .bury t =>
    match s.th t, s.gl with
    | .dying p, none =>
      some ({ s with dead := upd (upd s.dead p (s.dead G)) G p, th := upd s.th t .idle }, .buried t p none)
    | _, _ => none
  -- :132-136
  | .setDispose f => some ({ s with cb := f }, .was s.cb)
  -- :232
  | .iterate t =>
    match s.th t with
    | .idle => some ({ s with th := upd s.th t (.iter s.all []) }, .none)
    | _ => none
  -- :233-239
  | .visit t =>
    match s.th t with
    | .iter p out =>
      if p = 0 then some ({ s with th := upd s.th t .idle }, .profile t out)
      else if s.dead p = 0 then some ({ s with th := upd s.th t (.iter (s.next p) (out ++ [(p, s.data p)])) }, .none)
      else some ({ s with th := upd s.th t (.iter (s.next p) out) }, .none)
    | _ => none
  -- :213-215
  | .clear t =>
    match s.th t, s.gl with
    | .idle, none => some ({ s with gl := some t, th := upd s.th t (.sweep s.all s.cb) }, .none)
    | _, _ => none
  -- :216-226
  | .sweep t =>
    match s.th t with
    | .sweep p cb =>
      if p = 0 then some ({ s with gl := none, th := upd s.th t .idle }, .cleared t)
      else if s.dead p = 0 then
        some ({ s with dead := upd (upd s.dead p (s.dead G)) G p, th := upd s.th t (.sweep (s.next p) cb) },
          .buried t p (cb.map fun f => (f, s.data p)))
      else some ({ s with th := upd s.th t (.sweep (s.next p) cb) }, .none)
    | _ => none

end Verif.Recorder
