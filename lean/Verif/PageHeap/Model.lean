import Verif.HugeCache.Spec
import Verif.HugeRegion.Model
import Verif.Filler.Model
import Verif.Bitmap.Lemmas
/-
Model of `HugePageAwareAllocator`, /repo/tcmalloc/huge_page_aware_allocator.h: the page heap, built from the models of
the hugepage cache, the filler and the regions.

`N` = `kPagesPerHugePage`, `H` = hugepages per region, `mode` = the filler's mode.  Trackers and regions are named by
numbers handed out by `next` (their addresses).  `none` = a failed check or assertion, an arithmetic underflow or
`ReportDoubleFree`.

Every function runs under the page heap's lock, which is given up in four places: while the cache or `filler_.Put`
waits for the kernel, while `RefillFiller` calls `ShrinkToUsageLimit` (which may release memory), and between the two
halves of a treatment.  What remains to be done is kept in the state (`cache.inflight`, `puts`, `refills`, `treat`), and
anything else may happen before it is resumed.  (`Finalize` also calls `ShrinkToUsageLimit`, as its last action.)

Simplifications: statistics other than `stats()` and the donation counters, lifetime of span objects, and calls of
`Back`, `madvise` and VMA naming are omitted.  Whether `AllocLarge` prefers a new region (lines 649-669) is an arbitrary
choice given with the call.  The tracker's fields `was_donated_`, `abandoned_count_` and `abandoned_` are kept in `info`:
only this class reads or writes them after construction.
-/
namespace Verif.PageHeap
open Verif.HugeAddressMap
open Verif.HugeRegion (hlFromPages PStats)
open Verif.Filler (upd PutRes Obs)
open Verif.RangeTracker (subCount)

/-- `was_donated_`, `abandoned_count_`, `abandoned_` of a tracker, huge_page_tracker.h:334-388. -/
structure Info where
  donated : Bool
  count : Nat
  abandoned : Bool
  deriving Repr, DecidableEq

/-- Who is waiting in `filler_.Put`: `DeleteFromHugepage` (line 840) or case c of `Delete` (line 931) for the range of
`hl` hugepages from `hp` on. -/
inductive PK where
  | a (mightAbandon : Bool)
  | c (hp hl : Nat)
  deriving Repr, DecidableEq

structure PendPut where
  id : Nat
  rest : Nat
  k : PK
  deriving Repr, DecidableEq

/-- `RefillFiller` waiting in `ShrinkToUsageLimit`, line 573. -/
structure PendRefill where
  hp : Nat
  n : Nat
  objs : Nat
  dense : Bool
  fromReleased : Bool
  deriving Repr, DecidableEq

/-- A run of pages in use: the range, the object count it was allocated with and the `donated` bit of its span. -/
structure Run where
  p : Nat
  n : Nat
  objs : Nat
  donated : Bool
  deriving Repr, DecidableEq

/-- huge_page_aware_allocator.h:289-420; `trk` is the hugepage map of the pagemap (`SetHugepage`). -/
structure HP where
  cache : HugeCache.S
  fill : Filler.F
  regs : HugeRegion.S
  trk : Nat → Option Nat
  info : Nat → Info
  donated : Nat
  abandoned : Nat
  next : Nat
  puts : List PendPut
  refills : List PendRefill
  treat : Option (List Nat × List Nat)

def HP.init (N : Nat) (more : Bool) (reg : Nat → HugeRegion.R) : HP :=
  { cache := HugeCache.S.init, fill := Filler.F.init N, regs := HugeRegion.S.init more reg, trk := fun _ => none,
    info := fun _ => ⟨false, 0, false⟩, donated := 0, abandoned := 0, next := 0, puts := [], refills := [], treat := none }

/-- What a step shows: a run handed out (with `*from_released`), a refused request, a call that waits, a return, the
return value (in pages) of a release. -/
inductive Out where
  | run (r : Run) (fromReleased : Bool)
  | fail
  | waiting
  | ret
  | released (n : Nat)
  deriving Repr, DecidableEq

/-- A call of the kernel: first page, number of pages, did it succeed. -/
structure Call where
  p : Nat
  n : Nat
  ok : Bool
  deriving Repr, DecidableEq

/-- The outcome of a step, the calls of the kernel made with the lock held, the ranges newly obtained from the system. -/
structure Res where
  out : Out
  calls : List Call
  got : List Rng
  deriving Repr, DecidableEq

/-- A call of the cache. -/
def HP.onCache (s : HP) (e : HugeCache.Ev) : Option (HP × HugeCache.Out × List Rng) :=
  match HugeCache.step s.cache e with
  | none => none
  | some (c, o) => some ({ s with cache := c }, o, HugeCache.obtained' [] e o)

/-- The outcome of `cache_.Release`, `ReleaseUnbacked`, `ReleaseCachedPages` as the outcome of a step. -/
def outOf (N : Nat) : HugeCache.Out → Out
  | .released n => .released (n * N)
  | .waiting => .waiting
  | _ => .ret

/-- `cache_.Release(r)` or `cache_.ReleaseUnbacked(r)` as the last action. -/
def HP.giveBack (N : Nat) (s : HP) (e : HugeCache.Ev) : Option (HP × Res) :=
  match s.onCache e with
  | none => none
  | some (s', o, g) => some (s', ⟨outOf N o, [], g⟩)

/-- `AllocAndContribute`, lines 540-558. -/
def HP.contribute (N : Nat) (mode : Bool) (s : HP) (hp n objs : Nat) (donated dense : Bool) : Option HP :=
  if hp = 0 then none else
  match PageTracker.get N (PageTracker.PT.new N hp donated) n objs with
  | none => none
  | some (t, page, _) =>
    if page = hp * N then
      match Filler.contribute N mode s.fill s.next t donated dense with
      | none => none
      | some f =>
        some { s with fill := f, trk := upd s.trk hp (some s.next),
                      info := upd s.info s.next ⟨donated, if donated then n else 0, false⟩, next := s.next + 1 }
    else none

/-- `AllocRawHugepages` once the cache has answered, lines 695-725. -/
def HP.rawGot (N : Nat) (mode : Bool) (s : HP) (n objs : Nat) (dense : Bool) (r : Rng) (fr : Bool) (g : List Rng) :
    Option (HP × Res) :=
  let s1 := { s with trk := upd s.trk r.s none }
  let last := r.s + r.n - 1
  let slack := hlFromPages N n * N - n
  if slack = 0 then
    some ({ s1 with trk := upd s1.trk last none }, ⟨.run ⟨r.s * N, hlFromPages N n * N, objs, false⟩ fr, [], g⟩)
  else if slack < N then
    match HP.contribute N mode { s1 with donated := s1.donated + 1 } last (N - slack) objs true dense with
    | none => none
    | some s2 => some (s2, ⟨.run ⟨r.s * N, n, objs, true⟩ fr, [], g⟩)
  else none

/-- `AllocRawHugepages` and `AllocEnormous`, lines 681-726.  `sys` answers the system allocator; `a`, `b` are the
cache's clock readings. -/
def HP.allocRaw (N : Nat) (mode : Bool) (s : HP) (n objs : Nat) (dense fr : Bool) (sys : Option Rng) (a b : Nat) :
    Option (HP × Res) :=
  match s.onCache (.get (hlFromPages N n) fr sys a b) with
  | some (s1, .got none _ _, g) => some (s1, ⟨.fail, [], g⟩)
  | some (s1, .got (some r) fr' _, g) => HP.rawGot N mode s1 n objs dense r fr' g
  | _ => none

/-- `RefillFiller` up to `ShrinkToUsageLimit`, lines 561-573. -/
def HP.refill (s : HP) (n objs : Nat) (dense fr : Bool) (sys : Option Rng) (a b : Nat) : Option (HP × Res) :=
  match s.onCache (.get 1 fr sys a b) with
  | some (s1, .got none _ _, g) => some (s1, ⟨.fail, [], g⟩)
  | some (s1, .got (some r) fr' _, g) =>
    some ({ s1 with refills := s1.refills ++ [⟨r.s, n, objs, dense, fr'⟩] }, ⟨.waiting, [], g⟩)
  | _ => none

/-- `RefillFiller` from the return of `ShrinkToUsageLimit` on, line 574 and 609-612, for the `i`-th one waiting. -/
def HP.refillDone (N : Nat) (mode : Bool) (s : HP) (i : Nat) : Option (HP × Res) :=
  match s.refills[i]? with
  | none => none
  | some x =>
    match HP.contribute N mode { s with refills := s.refills.eraseIdx i } x.hp x.n x.objs false x.dense with
    | none => none
    | some s' => some (s', ⟨.run ⟨x.hp * N, x.n, x.objs, false⟩ x.fromReleased, [], []⟩)

/-- `AllocSmall`, lines 598-613. -/
def HP.allocSmall (N : Nat) (mode : Bool) (s : HP) (n objs : Nat) (dense : Bool) (sys : Option Rng) (a b : Nat) :
    Option (HP × Res) :=
  match Filler.tryGet N mode s.fill n objs dense with
  | none => none
  | some (f, some (_, page, rel)) => some ({ s with fill := f }, ⟨.run ⟨page, n, objs, false⟩ rel, [], []⟩)
  | some (f, none) => HP.refill { s with fill := f } n objs dense false sys a b

/-- `AddRegion`, lines 854-871. -/
def HP.addRegion (H N : Nat) (s : HP) (sys : Option Rng) : Option (HP × Bool × List Rng) :=
  match s.onCache (.take H sys) with
  | some (s1, .got none _ _, g) => some (s1, false, g)
  | some (s1, .got (some r) _ _, g) =>
    some ({ s1 with regs := s1.regs.contribute s1.next (HugeRegion.R.new H N r.s), next := s1.next + 1 }, true, g)
  | _ => none

/-- `TC_CHECK(regions_.MaybeGet(n, &page, from_released))`, lines 677-678. -/
def HP.regionMust (H N : Nat) (s : HP) (n objs : Nat) (g : List Rng) : Option (HP × Res) :=
  match HugeRegion.S.maybeGet H N s.regs n with
  | some (rs, some (_, page, rel)) => some ({ s with regs := rs }, ⟨.run ⟨page, n, objs, false⟩ rel, [], g⟩)
  | _ => none

/-- The end of `AllocLarge`, lines 649-678; `useRegion` = neither of the two tests sends the request to
`AllocRawHugepages`. -/
def HP.largeNew (H N : Nat) (mode : Bool) (s : HP) (n objs : Nat) (dense useRegion fr : Bool) (sys1 sys2 : Option Rng)
    (a b : Nat) : Option (HP × Res) :=
  if useRegion then
    match HP.addRegion H N s sys1 with
    | none => none
    | some (s1, true, g) => HP.regionMust H N s1 n objs g
    | some (s1, false, _) => HP.allocRaw N mode s1 n objs dense fr sys2 a b
  else HP.allocRaw N mode s n objs dense fr sys2 a b

/-- Lines 633-678 of `AllocLarge`: existing regions first. -/
def HP.largeRegion (H N : Nat) (mode : Bool) (s : HP) (n objs : Nat) (dense useRegion fr : Bool)
    (sys1 sys2 : Option Rng) (a b : Nat) : Option (HP × Res) :=
  match HugeRegion.S.maybeGet H N s.regs n with
  | none => none
  | some (rs, some (_, page, rel)) => some ({ s with regs := rs }, ⟨.run ⟨page, n, objs, false⟩ rel, [], []⟩)
  | some (rs, none) => HP.largeNew H N mode { s with regs := rs } n objs dense useRegion fr sys1 sys2 a b

/-- `AllocLarge`, lines 616-679. -/
def HP.allocLarge (H N : Nat) (mode : Bool) (s : HP) (n objs : Nat) (dense useRegion fr : Bool)
    (sys1 sys2 : Option Rng) (a b : Nat) : Option (HP × Res) :=
  if hlFromPages N n * N = n then HP.allocRaw N mode s n objs dense fr sys2 a b
  else if n < N then
    match Filler.tryGet N mode s.fill n objs dense with
    | none => none
    | some (f, some (_, page, rel)) => some ({ s with fill := f }, ⟨.run ⟨page, n, objs, false⟩ rel, [], []⟩)
    | some (f, none) => HP.largeRegion H N mode { s with fill := f } n objs dense useRegion false sys1 sys2 a b
  else HP.largeRegion H N mode s n objs dense useRegion fr sys1 sys2 a b

/-- `New` with `LockAndAlloc`, lines 729-769; `kSmallAllocPages` is line 289. -/
def HP.new (H N : Nat) (mode : Bool) (s : HP) (n objs : Nat) (dense useRegion fr : Bool) (sys1 sys2 : Option Rng)
    (a b : Nat) : Option (HP × Res) :=
  if n = 0 then none
  else if n ≤ N / 2 then HP.allocSmall N mode s n objs dense sys2 a b
  else if n ≤ H * N then HP.allocLarge H N mode s n objs dense useRegion fr sys1 sys2 a b
  else HP.allocRaw N mode s n objs dense fr sys2 a b

/-- `NewAligned`, lines 772-798. -/
def HP.newAligned (H N : Nat) (mode : Bool) (s : HP) (n align objs : Nat) (dense useRegion fr : Bool)
    (sys1 sys2 : Option Rng) (a b : Nat) : Option (HP × Res) :=
  if align ≤ 1 then HP.new H N mode s n objs dense useRegion fr sys1 sys2 a b
  else if align ≤ N then HP.allocRaw N mode s n objs dense fr sys2 a b
  else none

/-- Lines 974-983 of `ReleaseHugepage`: the donation counters. -/
def HP.settle (s : HP) (id : Nat) : Option HP :=
  if (s.info id).donated then
    match subCount s.donated 1 with
    | none => none
    | some d =>
      if (s.info id).abandoned then
        match subCount s.abandoned (s.info id).count with
        | none => none
        | some c => some { s with donated := d, abandoned := c, info := upd s.info id { s.info id with abandoned := false } }
      else some { s with donated := d }
  else if (s.info id).count = 0 then some s else none

/-- `ReleaseHugepage`, lines 969-995; `el`, `ms` are the cache's clock readings. -/
def HP.releaseHugepage (N : Nat) (s : HP) (id : Nat) (el : Bool) (ms : Nat) : Option (HP × Res) :=
  if (s.fill.tr id).free.nused = 0 then
    match s.settle id with
    | none => none
    | some s1 =>
      let r : Rng := ⟨(s1.fill.tr id).loc, 1⟩
      let s2 := { s1 with trk := upd s1.trk r.s none }
      if (s2.fill.tr id).relCount > 0 then s2.giveBack N (.releaseUnbacked r) else s2.giveBack N (.release r el ms)
  else none

/-- Lines 843-846 and 938-939: the pages of a donated hugepage are abandoned. -/
def HP.abandon (s : HP) (id : Nat) : HP :=
  { s with abandoned := s.abandoned + (s.info id).count, info := upd s.info id { s.info id with abandoned := true } }

/-- `DeleteFromHugepage` once `filler_.Put` has returned, lines 840-850. -/
def HP.afterPutA (N : Nat) (s : HP) (id : Nat) (mightAbandon : Bool) (res : Option Nat) (el : Bool) (ms : Nat) :
    Option (HP × Res) :=
  match res with
  | none =>
    if mightAbandon then
      if (s.info id).donated then some (s.abandon id, ⟨.ret, [], []⟩) else none
    else some (s, ⟨.ret, [], []⟩)
  | some _ => s.releaseHugepage N id el ms

/-- Case c of `Delete` once `filler_.Put` has returned, lines 931-965. -/
def HP.afterPutC (N : Nat) (s : HP) (id hp hl : Nat) (res : Option Nat) (el : Bool) (ms : Nat) : Option (HP × Res) :=
  match res with
  | none =>
    match subCount hl 1 with
    | none => none
    | some hl => (s.abandon id).giveBack N (.release ⟨hp, hl⟩ el ms)
  | some _ =>
    if (s.info id).abandoned then none
    else if (s.fill.tr id).relCount > 0 then
      match subCount hl 1, s.releaseHugepage N id el ms with
      | some hl, some (s1, _) => s1.giveBack N (.release ⟨hp, hl⟩ el ms)
      | _, _ => none
    else
      match subCount s.donated 1 with
      | none => none
      | some d =>
        HP.giveBack N { s with donated := d, trk := upd s.trk (s.fill.tr id).loc none } (.release ⟨hp, hl⟩ el ms)

/-- What follows `filler_.Put`. -/
def HP.afterPut (N : Nat) (s : HP) (id : Nat) (res : Option Nat) (el : Bool) (ms : Nat) : PK → Option (HP × Res)
  | .a ma => s.afterPutA N id ma res el ms
  | .c hp hl => s.afterPutC N id hp hl res el ms

/-- `filler_.Put(pt, Range(p, n))` and what follows it. -/
def HP.fillerPut (N : Nat) (mode : Bool) (s : HP) (id p n objs : Nat) (k : PK) (el : Bool) (ms : Nat) :
    Option (HP × Res) :=
  match Filler.put N mode s.fill id p n objs with
  | none => none
  | some (f, .wait rest) => some ({ s with fill := f, puts := ⟨id, rest, k⟩ :: s.puts }, ⟨.waiting, [], []⟩)
  | some (f, .done res) => HP.afterPut N { s with fill := f } id res el ms k

/-- Case c of `Delete`, lines 915-965. -/
def HP.deleteRaw (N : Nat) (mode : Bool) (s : HP) (r : Run) (el : Bool) (ms : Nat) : Option (HP × Res) :=
  if N ≤ r.n then
    let hl := hlFromPages N r.n
    let last := r.p / N + hl - 1
    let slack := hl * N - r.n
    if slack = 0 then
      if s.trk last = none then s.giveBack N (.release ⟨r.p / N, hl⟩ el ms) else none
    else
      match s.trk last with
      | none => none
      | some id =>
        if (s.info id).donated ∧ (s.fill.tr id).loc = last then
          HP.fillerPut N mode s id (last * N) (N - slack) r.objs (.c (r.p / N) hl) el ms
        else none
  else none

/-- Lines 909-965: case b, then case c. -/
def HP.deleteOther (H N : Nat) (mode : Bool) (s : HP) (r : Run) (el : Bool) (ms : Nat) (ok : Nat → Bool) :
    Option (HP × Res) :=
  match HugeRegion.S.maybePut H N s.regs r.p r.n ok with
  | none => none
  | some (rs, some (id, calls)) =>
    some ({ s with regs := rs },
      ⟨.ret, calls.map fun c => ⟨((s.regs.reg id).loc + c.i) * N, c.n * N, c.ok⟩, []⟩)
  | some (rs, none) => HP.deleteRaw N mode { s with regs := rs } r el ms

/-- `Delete`, lines 888-966 (`GetTracker` asserts the location, line 529).  `ok` answers the kernel for the regions. -/
def HP.delete (H N : Nat) (mode : Bool) (s : HP) (r : Run) (el : Bool) (ms : Nat) (ok : Nat → Bool) : Option (HP × Res) :=
  match s.trk (r.p / N) with
  | some id =>
    if (s.fill.tr id).loc = r.p / N ∧ (r.p + r.n - 1) / N = r.p / N then
      HP.fillerPut N mode s id r.p r.n r.objs (.a r.donated) el ms
    else none
  | none => HP.deleteOther H N mode s r el ms ok

/-- The kernel answers the `i`-th waiting `filler_.Put`. -/
def HP.putAnswer (N : Nat) (mode : Bool) (s : HP) (i : Nat) (ok : Bool) (el : Bool) (ms : Nat) : Option (HP × Res) :=
  match s.puts[i]? with
  | none => none
  | some x =>
    match Filler.putAnswer N mode s.fill x.id x.rest ok with
    | some (f, .done res) => HP.afterPut N { s with fill := f, puts := s.puts.eraseIdx i } x.id res el ms x.k
    | _ => none

/-! ### Releasing -/

/-- Calls concerning hugepages of the regions, and pages of trackers, as calls on pages. -/
def regionCalls (N : Nat) (s : HP) (log : HugeRegion.Log) : List Call :=
  log.map fun x => ⟨((s.regs.reg x.1).loc + x.2.i) * N, x.2.n * N, x.2.ok⟩
def fillerCalls (N : Nat) (s : HP) (log : Filler.Log) : List Call :=
  log.map fun x => ⟨(s.fill.tr x.1).loc * N + x.2.i, x.2.n, x.2.ok⟩

/-- The choices made outside the modelled code when releasing: `huge_region_adaptive_release`, the tenth of the free
pages of the regions, whether the filler takes part (`hpaa_subrelease`), `release_max_cold`, the filler's 10 % rule and
skip-subrelease target, the trackers it passes over, and the kernel's answers. -/
structure RelArgs where
  adaptive : Bool
  frac : Nat
  subrelease : Bool
  maxCold : Bool
  partials : Nat
  adjusted : Option Nat
  skip : Nat → Bool
  okR : Nat → Nat → Bool
  okF : Nat → Nat → Bool

/-- `Length::max()`. -/
def lengthMax : Nat := 2 ^ 64 - 1

/-- `filler_.ReleasePages`, as used at lines 1067-1077 and 1273-1275. -/
def HP.releaseFiller (N : Nat) (mode : Bool) (s : HP) (desired released : Nat) (x : RelArgs) (calls : List Call) :
    Option (HP × Res) :=
  match Filler.releasePages N mode s.fill desired x.adjusted x.skip x.okF with
  | none => none
  | some (f, n, log) => some ({ s with fill := f }, ⟨.released (released + n), calls ++ fillerCalls N s log, []⟩)

/-- Lines 1062-1079 of `ReleaseAtLeastNPages`. -/
def HP.releaseSub (N : Nat) (mode : Bool) (s : HP) (num released : Nat) (x : RelArgs) (calls : List Call) :
    Option (HP × Res) :=
  if x.subrelease = true ∧ (released < num ∨ x.maxCold = true) then
    HP.releaseFiller N mode s (max (if x.maxCold then lengthMax else num - released) x.partials) released x calls
  else some (s, ⟨.released released, calls, []⟩)

/-- `ReleaseAtLeastNPages` once the cache has released `released` pages, lines 1053-1082. -/
def HP.releaseRest (H N : Nat) (mode : Bool) (s : HP) (num released : Nat) (x : RelArgs) : Option (HP × Res) :=
  if s.regs.more then
    match HugeRegion.S.releasePages H N s.regs (num - released) x.adaptive false x.frac x.okR with
    | none => none
    | some (rs, n, log) =>
      HP.releaseSub N mode { s with regs := rs } num (released + n) x (regionCalls N s log)
  else HP.releaseSub N mode s num released x []

/-- `ReleaseAtLeastNPagesBreakingHugepages` once the cache has released `released` pages, lines 1261-1279. -/
def HP.breakRest (H N : Nat) (mode : Bool) (s : HP) (num released : Nat) (x : RelArgs) : Option (HP × Res) :=
  match HugeRegion.S.releasePages H N s.regs (num - released) x.adaptive true x.frac x.okR with
  | none => none
  | some (rs, n, log) =>
    if num ≤ released + n then
      some ({ s with regs := rs }, ⟨.released (released + n), regionCalls N s log, []⟩)
    else
      HP.releaseFiller N mode { s with regs := rs } (num - (released + n)) (released + n)
        { x with adjusted := none } (regionCalls N s log)

/-- The first half of `TreatHugepageTrackers`, lines 1086-1094. -/
def HP.treatBegin (s : HP) (sampled collapse : List Nat) : Option (HP × Res) :=
  if s.treat = none then
    some ({ s with fill := Filler.treatBegin s.fill sampled collapse, treat := some (sampled, collapse) },
      ⟨.waiting, [], []⟩)
  else none

/-- The second half, line 1093-1094. -/
def HP.treatEnd (N : Nat) (mode : Bool) (s : HP) (obs : List Obs) (stale : Bool) (ok : Nat → Nat → Bool) :
    Option (HP × Res) :=
  match s.treat with
  | none => none
  | some (sampled, collapse) =>
    if obs.map Obs.id = collapse then
      match Filler.treatEnd N mode stale s.fill sampled obs ok with
      | none => none
      | some (f, log) => some ({ s with fill := f, treat := none }, ⟨.ret, fillerCalls N s log, []⟩)
    else none

/-- One round of the loop at lines 1096-1098. -/
def HP.fetch (N : Nat) (s : HP) (el : Bool) (ms : Nat) : Option (HP × Res) :=
  match Filler.fetchFreed s.fill with
  | (f, none) => some ({ s with fill := f }, ⟨.ret, [], []⟩)
  | (f, some id) => HP.releaseHugepage N { s with fill := f } id el ms

/-! ### What the page heap reports -/

/-- `stats()`, lines 999-1010, in pages; the parts are huge_allocator.h:77-83, huge_cache.h:193-199,
huge_page_filler.h:1708-1714. -/
def HP.stats (H N : Nat) (s : HP) : Option PStats :=
  match Filler.freeTotal N s.fill, HugeRegion.S.stats H N s.regs with
  | some f, some r =>
    some ⟨s.cache.alloc.fromSystem * N, s.cache.size * N + f + r.free,
      s.cache.alloc.free.total * N + s.fill.unmapped + r.unmapped⟩
  | _, _ => none

/-- `HugeCache::Contains`, huge_cache.h:201-204. -/
def cacheContains (s : HugeCache.S) (p : Nat) : Bool :=
  match HugeAddressMap.pred p s.cache.root none with
  | none => false
  | some r => r.contains p

/-- `HugeRegionSet::GetPageAllocationStatus`, huge_region.h:211-219 with 100-114. -/
def regionStatus (H N : Nat) (s : HugeRegion.S) (hp : Nat) : Option (Nat → Bool) :=
  match s.ids.find? (fun id => (s.reg id).contains H N (hp * N)) with
  | none => none
  | some id =>
    let r := s.reg id
    if r.backed (hp - r.loc) then some fun i => Bitmap.bitAt r.trk.bits ((hp - r.loc) * N + i) else some fun _ => false

/-- `GetPageAllocationStatus`, lines 1310-1336: is page `i` of hugepage `hp` allocated? -/
def HP.pageStatus (H N : Nat) (s : HP) (hp : Nat) : Nat → Bool :=
  match s.trk hp with
  | some id => fun i => Bitmap.bitAt (s.fill.tr id).free.bits i
  | none =>
    match regionStatus H N s.regs hp with
    | some f => f
    | none => if cacheContains s.cache hp || HugeAllocator.contains s.cache.alloc hp then fun _ => false else fun _ => true

/-! ### Everything that can happen -/

inductive Ev where
  | new (n objs : Nat) (dense useRegion fr : Bool) (sys1 sys2 : Option Rng) (a b : Nat)
  | newAligned (n align objs : Nat) (dense useRegion fr : Bool) (sys1 sys2 : Option Rng) (a b : Nat)
  | refillDone (i : Nat)
  | delete (r : Run) (el : Bool) (ms : Nat) (ok : Nat → Bool)
  | putAnswer (i : Nat) (ok el : Bool) (ms : Nat)
  | cacheAnswer (i : Nat) (ok : Bool)
  | releaseCached (num ms : Nat)
  | releaseRest (num released : Nat) (x : RelArgs)
  | breakRest (num released : Nat) (x : RelArgs)
  | treatBegin (sampled collapse : List Nat)
  | treatEnd (obs : List Obs) (stale : Bool) (ok : Nat → Nat → Bool)
  | fetch (el : Bool) (ms : Nat)

def HP.step (H N : Nat) (mode : Bool) (s : HP) : Ev → Option (HP × Res)
  | .new n objs d u fr s1 s2 a b => s.new H N mode n objs d u fr s1 s2 a b
  | .newAligned n al objs d u fr s1 s2 a b => s.newAligned H N mode n al objs d u fr s1 s2 a b
  | .refillDone i => s.refillDone N mode i
  | .delete r el ms ok => s.delete H N mode r el ms ok
  | .putAnswer i ok el ms => s.putAnswer N mode i ok el ms
  | .cacheAnswer i ok => s.giveBack N (.answer i ok)
  | .releaseCached num ms => s.giveBack N (.releaseCached (hlFromPages N num) ms)
  | .releaseRest num rel x => s.releaseRest H N mode num rel x
  | .breakRest num rel x => s.breakRest H N mode num rel x
  | .treatBegin a b => s.treatBegin a b
  | .treatEnd obs stale ok => s.treatEnd N mode obs stale ok
  | .fetch el ms => s.fetch N el ms

end Verif.PageHeap
