import Verif.TransferCache.Model
/-!
The middle tier of one size class: the transfer cache (cache 0), its shards (caches 1, 2, …, each backed by
cache 0: transfer_cache.h:105-117), and below them the central free list of the class, the model of
`Verif/CentralFreeList` itself.
-/
namespace Verif.TransferCache
open Verif.Span (Geo Mem IsObj InObj)

/-- A batch in the local buffer of a call that has dropped the lock and is about to pass it down: to cache 0
(`toCache`) or to the central free list; `cont` is the plunder that goes on afterwards (its cache and how many
objects it still is to return). -/
structure Flight where
  objs : List Nat
  toCache : Bool
  cont : Option (Nat × Nat)

/-- The central free list with its surroundings, the caches, the objects held by the callers of the tier
(the per-CPU caches, the thread caches and users), the batches on their way down, and the plunders that wait
for the lock. -/
structure World where
  x : CentralFreeList.World
  t : List TC
  held : List Nat
  flight : List Flight
  conts : List (Nat × Nat)

/-- What can happen.  `hint`s: what the unlocked reads suggest.  `land j`: the `j`-th batch on its way is
passed down. -/
inductive Ev
  | write (w : Mem)
  | insert (i : Nat) (batch : List Nat) (hint : Bool)
  | land (j : Nat) (hint : Bool)
  | remove (i n : Nat) (hint hint0 : Bool)
  | populate (j : Nat) (span : Option Nat)
  | plunder (i : Nat)
  | plunderNext (j : Nat)
  | plunderStop (j : Nat)
  | shrink (i : Nat)
  | grow (i : Nat)

/-- What a step lets the outside see: the batch returned by a finished `RemoveRange`, the spans given back
to the page heap, the result of `ShrinkCache`/`IncreaseCacheCapacity`. -/
structure Out where
  got : Option (List Nat)
  freed : List Nat
  ok : Option Bool
deriving DecidableEq

/-- What callers, users and the page heap must respect. -/
def Pre (k : Geo) (y : World) : Ev → Prop
  | .write w => ∀ p ∈ y.x.sp, ∀ o, IsObj (CentralFreeList.spanAt k p) o → o ∉ y.held →
      ∀ a, InObj (CentralFreeList.spanAt k p) o a → w a = y.x.c.w a
  | .insert i batch _ => i < y.t.length ∧ batch ≠ [] ∧ batch.length ≤ kMaxObjectsToMove ∧ batch.Nodup ∧
      ∀ o ∈ batch, o ∈ y.held
  | .land j _ => j < y.flight.length
  | .remove i n _ _ => i < y.t.length ∧ 0 < n ∧ n ≤ kMaxObjectsToMove
  | .populate j span => CentralFreeList.Pre k y.x (.populate j span)
  | .plunder i => i < y.t.length
  | .plunderNext j => j < y.conts.length
  | .plunderStop j => j < y.conts.length
  | .shrink i => i < y.t.length
  | .grow i => i < y.t.length

/-- The batch `rest` leaves cache `i` for the layer below, unless it is empty; then the plunder behind it
goes on. -/
def World.send (y : World) (toCache : Bool) (rest : List Nat) (cont : Option (Nat × Nat)) : World :=
  if rest = [] then { y with conts := cont.toList ++ y.conts }
  else { y with flight := ⟨rest, toCache, cont⟩ :: y.flight }

/-- A `RemoveRange` that reaches the central free list. -/
def World.below (k : Geo) (y : World) (n : Nat) : Option (World × Out) :=
  (CentralFreeList.step k y.x (.remove n)).map fun (x, o) =>
    ({ y with x := x, held := o.got.getD [] ++ y.held }, ⟨o.got, o.freed, none⟩)

/-- The result of a section of `TryPlunder` on cache `i`. -/
def World.plundered (y : World) (i : Nat) : TC × Option (List Nat × Nat) → World
  | (t, none) => { y with t := y.t.set i t }
  | (t, some (buf, r)) => { y with t := y.t.set i t }.send (decide (i ≠ 0)) buf (some (i, r))

def step (k : Geo) (B : Nat) (y : World) : Ev → Option (World × Out)
  | .write w => (CentralFreeList.step k y.x (.write w)).map fun (x, _) => ({ y with x := x }, ⟨none, [], none⟩)
  | .insert i batch hint =>
    (y.t[i]?).bind fun t => (t.insert batch hint).map fun (t, rest) =>
      ({ y with t := y.t.set i t, held := y.held.filter fun o => decide (o ∉ batch) }.send (decide (i ≠ 0)) rest none,
        ⟨none, [], none⟩)
  | .land j hint =>
    (y.flight[j]?).bind fun f =>
      let y1 := { y with flight := y.flight.eraseIdx j }
      if f.toCache then
        (y.t[0]?).bind fun t => (t.insert f.objs hint).map fun (t, rest) =>
          ({ y1 with t := y1.t.set 0 t }.send false rest f.cont, ⟨none, [], none⟩)
      else
        (CentralFreeList.step k y.x (.insert f.objs)).map fun (x, o) =>
          ({ y1 with x := x, conts := f.cont.toList ++ y1.conts }, ⟨none, o.freed, none⟩)
  | .remove i n hint hint0 =>
    (y.t[i]?).bind fun t => (t.remove n hint).bind fun
      | (t, some objs) => some ({ y with t := y.t.set i t, held := objs ++ y.held }, ⟨some objs, [], none⟩)
      | (_, none) =>
        if i = 0 then y.below k n
        else (y.t[0]?).bind fun t => (t.remove n hint0).bind fun
          | (t, some objs) => some ({ y with t := y.t.set 0 t, held := objs ++ y.held }, ⟨some objs, [], none⟩)
          | (_, none) => y.below k n
  | .populate j span =>
    (CentralFreeList.step k y.x (.populate j span)).map fun (x, o) =>
      ({ y with x := x, held := o.got.getD [] ++ y.held }, ⟨o.got, o.freed, none⟩)
  | .plunder i =>
    (y.t[i]?).bind fun t => (t.plunder B).map fun r => (y.plundered i r, ⟨none, [], none⟩)
  | .plunderNext j =>
    (y.conts[j]?).bind fun (i, r) => (y.t[i]?).bind fun t => (t.plunderTurn B r).map fun q =>
      ({ y with conts := y.conts.eraseIdx j }.plundered i q, ⟨none, [], none⟩)
  | .plunderStop j => some ({ y with conts := y.conts.eraseIdx j }, ⟨none, [], none⟩)
  | .shrink i =>
    (y.t[i]?).bind fun t => (t.shrink B).map fun (t, b, objs) =>
      ({ y with t := y.t.set i t }.send (decide (i ≠ 0)) objs none, ⟨none, [], some b⟩)
  | .grow i =>
    (y.t[i]?).bind fun t => (t.grow B).map fun (t, b) => ({ y with t := y.t.set i t }, ⟨none, [], some b⟩)

/-- All histories, from caches of any admissible initial capacities. -/
inductive Reach (k : Geo) (B : Nat) : World → Prop
  | init (w : Mem) (t : List TC) (h : ∀ c ∈ t, ∃ cap max slots, c = TC.new cap max slots ∧ cap ≤ max) :
      Reach k B ⟨⟨CentralFreeList.init w, [], []⟩, t, [], [], []⟩
  | step {y y' : World} {o : Out} (e : Ev) : Reach k B y → Pre k y e → step k B y e = some (y', o) → Reach k B y'

/-- The objects in a cache, oldest first. -/
def TC.objs (t : TC) : List Nat := (List.range t.used).map t.slots

/-- The objects in the caches, and those on their way down. -/
def World.cached (y : World) : List Nat := y.t.flatMap TC.objs
def World.flying (y : World) : List Nat := y.flight.flatMap Flight.objs

end Verif.TransferCache
