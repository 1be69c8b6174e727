import Verif.HugeAllocator.Spec
/-
Model of the cache of backed, unused hugepage ranges: /repo/tcmalloc/huge_cache.{h,cc}.

`unback_` drops and re-acquires the page heap lock (huge_cache.cc:279-281; the production object is
`UnbackWithoutLock`, huge_page_aware_allocator.h:373, 521), so a call of `ShrinkCache` is split there: the range
being unbacked sits in `inflight` together with what remains to be done, and any other call may run before the
kernel's answer arrives.

Simplifications: the clock and the min/max trackers enter as arbitrary numbers given with each call
(`elapsed`, `minSize`, `shrinkMax`, `usageMin`); the hit/miss/fill statistics are omitted.
`none` = a failed check (the program stops).
-/
namespace Verif.HugeCache
open Verif.HugeAddressMap Verif.HugeAllocator

/-- What is left of a call once its last `ShrinkCache` returns. -/
inductive Fin where
  /-- huge_cache.cc:230-231: the second `ShrinkCache` of `Release` -/
  | relB
  /-- huge_cache.cc:302-306: the second `ShrinkCache` of `ReleaseCachedPages`; `rel` was released before -/
  | rcpB (rel : Nat)
  deriving Repr, DecidableEq

/-- What is left of a call once the current `ShrinkCache` returns. -/
inductive Cont where
  /-- huge_cache.cc:228: inside `MaybeShrinkCacheLimit` called by `Release` -/
  | relA
  /-- huge_cache.cc:297: inside `MaybeShrinkCacheLimit` called by `ReleaseCachedPages(n)` -/
  | rcpA (n : Nat)
  | fin (k : Fin)
  deriving Repr, DecidableEq

/-- A call waiting for the kernel: the range being unbacked and the locals of `ShrinkCache`. -/
structure Pend where
  r : Rng
  target : Nat
  removed : Nat
  k : Cont
  deriving Repr, DecidableEq

/-- huge_cache.h:218-276. -/
structure S where
  cache : HMap
  size : Nat
  limit : Nat
  usage : Nat
  alloc : HA
  fast : Nat
  periodic : Nat
  inflight : List Pend
  /-- History only: the ranges taken from the same allocator by others (`takeRange`). -/
  taken : List Rng
  deriving Repr

/-- `MinCacheLimit`, huge_cache.h:252. -/
def minLimit : Nat := 10

def S.init : S := ⟨HMap.init, 0, 10, 0, HA.init, 0, 0, [], []⟩

/-- Remove node `q` and put back what exceeds `n` hugepages: `Split` (huge_pages.h:381-389) with
huge_cache.cc:126-132 or 264-276 (`Remove` and `Insert` of the leftover). -/
def takeMap (m : HMap) (q : Rng) (n : Nat) : Option (HMap × Rng) :=
  match HugeAddressMap.remove m q.s with
  | none => none
  | some m1 =>
    if q.n > n then
      match HugeAddressMap.insert m1 ⟨q.s + n, q.n - n⟩ with
      | none => none
      | some m2 => some (m2, ⟨q.s, n⟩)
    else some (m1, q)

/-- The results of calls: a range (or nothing) with `*from_released` and whether the system allocator was asked; the return of a `Release`; the return
value of `ReleaseCachedPages`; or the call is waiting for the kernel. -/
inductive Out where
  | got (r : Option Rng) (fromReleased : Bool) (asked : Bool)
  | ret
  | released (n : Nat)
  | waiting
  deriving Repr, DecidableEq

/-- One round of the loop of `ShrinkCache` up to `unback_`, huge_cache.cc:258-278 (`size_ > target`).
`Find` is the same code as `HugeAllocator::Find` (huge_cache.cc:322-367). -/
def start (s : S) (target removed : Nat) (k : Cont) : Option (S × Out) :=
  match find 1 s.cache.root none with
  | none => none
  | some q =>
    match takeMap s.cache q (if q.n > s.size - target then s.size - target else q.n) with
    | none => none
    | some (m, r) =>
      some ({ s with cache := m, size := s.size - r.n,
                     inflight := s.inflight ++ [⟨r, target, removed, k⟩] }, .waiting)

/-- After the last `ShrinkCache` of a call. -/
def finish (s : S) (removed : Nat) : Fin → S × Out
  | .relB => ({ s with fast := s.fast + removed }, .ret)
  | .rcpB rel => ({ s with periodic := s.periodic + (rel + removed) }, .released (rel + removed))

/-- `ShrinkCache` as the last one of a call. -/
def shrinkF (s : S) (target removed : Nat) (k : Fin) : Option (S × Out) :=
  if s.size > target then start s target removed (.fin k) else some (finish s removed k)

/-- After `ShrinkCache` returned `removed`: huge_cache.cc:228-231 and 297-306. -/
def resume (s : S) (removed : Nat) : Cont → Option (S × Out)
  | .relA => shrinkF { s with fast := s.fast + removed } s.limit 0 .relB
  | .rcpA n =>
    if removed < n then
      shrinkF s (if n - removed > s.size then 0 else s.size - (n - removed)) 0 (.rcpB removed)
    else some (finish s 0 (.rcpB removed))
  | .fin k => some (finish s removed k)

/-- `ShrinkCache`, huge_cache.cc:256-293, entered with `removed` already removed. -/
def shrink (s : S) (target removed : Nat) (k : Cont) : Option (S × Out) :=
  if s.size > target then start s target removed k else resume s removed k

/-- `MaybeShrinkCacheLimit`, huge_cache.cc:240-254; `minSize` = `size_tracker_.MinOverTime(cache_time_ * 2)`. -/
def maybeShrinkLimit (s : S) (minSize : Nat) (k : Cont) : Option (S × Out) :=
  if minSize < s.limit / 5 then resume s 0 k
  else
    let drop := max (minSize / 2) 1
    let lim := max (if s.limit ≤ drop then 0 else s.limit - drop) minLimit
    shrink { s with limit := lim } lim 0 k

/-- `MaybeGrowCacheLimit`, huge_cache.cc:137-181. -/
def maybeGrowLimit (s : S) (shrinkMax usageMin : Nat) : S :=
  let dip := min shrinkMax (s.usage - usageMin)
  let lim := dip + dip / 10
  if lim > s.limit then { s with limit := lim } else s

/-- `Get` with `DoGet`, huge_cache.cc:110-135 and 202-212.  `fr` is the caller's initial `*from_released`. -/
def get (s : S) (n : Nat) (fr : Bool) (sys : Option Rng) (shrinkMax usageMin : Nat) : Option (S × Out) :=
  match find n s.cache.root none with
  | some q =>
    match takeMap s.cache q n with
    | none => none
    | some (m, r) =>
      some ({ s with cache := m, size := s.size - n, usage := s.usage + r.n }, .got (some r) false false)
  | none =>
    match HugeAllocator.get s.alloc n sys with
    | none => none
    | some (al, none, asked) => some ({ s with alloc := al }, .got none fr asked)
    | some (al, some r, asked) =>
      some (maybeGrowLimit { s with alloc := al, usage := s.usage + r.n } shrinkMax usageMin,
        .got (some r) true asked)

/-- `Release`, huge_cache.cc:214-232. -/
def release (s : S) (r : Rng) (elapsed : Bool) (minSize : Nat) : Option (S × Out) :=
  match HugeAddressMap.insert s.cache r with
  | none => none
  | some m =>
    let s1 := { s with usage := s.usage - r.n, cache := m, size := s.size + r.n }
    if elapsed then maybeShrinkLimit s1 minSize .relA
    else resume s1 0 .relA

/-- `ReleaseUnbacked`, huge_cache.cc:234-238. -/
def releaseUnbacked (s : S) (r : Rng) : Option (S × Out) :=
  match HugeAllocator.release s.alloc r with
  | none => none
  | some al => some ({ s with usage := s.usage - r.n, alloc := al }, .ret)

/-- `ReleaseCachedPages`, huge_cache.cc:295-307. -/
def releaseCached (s : S) (n minSize : Nat) : Option (S × Out) :=
  maybeShrinkLimit s minSize (.rcpA n)

/-- The kernel's answer to the `i`-th waiting call, huge_cache.cc:281-291. -/
def answer (s : S) (i : Nat) (ok : Bool) : Option (S × Out) :=
  match s.inflight[i]? with
  | none => none
  | some p =>
    let s1 := { s with inflight := s.inflight.eraseIdx i }
    if ok then
      match HugeAllocator.release s1.alloc p.r with
      | none => none
      | some al => shrink { s1 with alloc := al } p.target (p.removed + p.r.n) p.k
    else
      match HugeAddressMap.insert s1.cache p.r with
      | none => none
      | some m => resume { s1 with size := s1.size + p.r.n, cache := m } p.removed p.k

/-- Another user of the allocator behind the cache takes `n` hugepages for good: `AddRegion`,
huge_page_aware_allocator.h:854-871 (`alloc_.Get(HugeRegion::size())`, the same `alloc_` the cache is built on,
:515-521). -/
def takeRange (s : S) (n : Nat) (sys : Option Rng) : Option (S × Out) :=
  match HugeAllocator.get s.alloc n sys with
  | none => none
  | some (al, res, asked) => some ({ s with alloc := al, taken := res.toList ++ s.taken }, .got res true asked)

/-- Everything that can happen next. -/
inductive Ev where
  | get (n : Nat) (fr : Bool) (sys : Option Rng) (shrinkMax usageMin : Nat)
  | release (r : Rng) (elapsed : Bool) (minSize : Nat)
  | releaseUnbacked (r : Rng)
  | releaseCached (n minSize : Nat)
  | answer (i : Nat) (ok : Bool)
  | take (n : Nat) (sys : Option Rng)
  deriving Repr

def step (s : S) : Ev → Option (S × Out)
  | .get n fr sys a b => get s n fr sys a b
  | .release r e m => release s r e m
  | .releaseUnbacked r => releaseUnbacked s r
  | .releaseCached n m => releaseCached s n m
  | .answer i ok => answer s i ok
  | .take n sys => takeRange s n sys

/-- A call run to its end with nothing else happening: its waits are answered by `ans` in order.  The waiting
call is the last one of `inflight`. -/
def drain : List Bool → S → Out → Option (S × Out)
  | b :: bs, s, .waiting =>
    match answer s (s.inflight.length - 1) b with
    | none => none
    | some (s', o) => drain bs s' o
  | _, s, o => some (s, o)

end Verif.HugeCache
