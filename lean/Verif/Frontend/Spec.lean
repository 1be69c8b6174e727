import Verif.Frontend.Model
import Verif.SizeMap.Spec
/-!
Specification vocabulary for the entry points: what the environment is, what a caller may pass, what
the back end promises, and what a user can rely on.
-/
namespace Verif.Frontend
open Verif.SizeMap (Cfg Maps Policy Res Info getSizeClass bytesToLengthCeil init)
open Verif.MemoryTag

/-- The globals after start-up: a shipped configuration, the size map its `Init` built from table `t`,
and the number of active partitions (static_vars.h:112-115, numa.h): two when heap partitioning is
on, one or two on NUMA builds, otherwise one. -/
structure Env.OK (env : Env) (t : List Info) : Prop where
  cfg : env.cfg.Shipped
  maps : ∃ leftover, init env.cfg t leftover = .ok env.maps
  sec : env.cfg.secParts = 2 → env.activeParts = if env.cfg.partActive then 2 else 1
  numa : env.cfg.numaParts = 2 → env.activeParts = 1 ∨ env.activeParts = 2
  one : env.cfg.secParts = 1 → env.cfg.numaParts = 1 → env.activeParts = 1
  osPage : ∃ k, 3 ≤ k ∧ k < 32 ∧ env.osPage = 2 ^ k

/-- What a caller can pass: a power-of-two alignment, an existing security partition, the NUMA
partition of some CPU.  `AccessAs` is only applied to `CppPolicy`. -/
structure Pol.Valid (env : Env) (p : Pol) : Prop where
  pow2 : ∃ k, p.kind.align = 2 ^ k
  sec : p.secPart < env.cfg.secParts
  numa : p.numaPart < env.cfg.numaParts
  numaActive : env.activeParts = 1 → p.numaPart = 0
  coldNew : p.cold = true → p.kind.type = .new

/-- The bytes of a block a user may touch. -/
def Block.Has (env : Env) (b : Block) (a : Nat) : Prop :=
  ∃ n, getSize env b = some n ∧ b.addr ≤ a ∧ a < b.addr + n

/-- What the small-object back end promises for class `c` of `bytes`-byte objects
(caches/central free list/page heap: an object of a span of that class, on memory with the class's
tag; sampled: a page-aligned span with a sampled tag; guarded: aligned as asked, sampled tag). -/
def SmallAns.Promise (env : Env) (p : Pol) (c bytes : Nat) : SmallAns → Prop
  | .null => True
  | .cached addr ss _ => env.cfg.pageSize ∣ ss ∧ (∃ i, addr = ss + i * bytes) ∧
      (∃ t, tagFromSizeClass env.cfg env.activeParts c = some t ∧ getMemoryTag addr = t.val) ∧
      0 < addr ∧ addr + bytes ≤ 2 ^ 48
  | .ownSpan addr => env.cfg.pageSize ∣ addr ∧ getMemoryTag addr = (sampledTag env p).val ∧
      0 < addr ∧ addr + bytes ≤ 2 ^ 48
  | .guarded addr _ => p.kind.align ∣ addr ∧ getMemoryTag addr = (sampledTag env p).val ∧
      0 < addr ∧ addr + bytes ≤ 2 ^ 48

/-- What the page heap promises for `pages` pages: an address aligned to the page size and to the
requested alignment, inside the 48-bit address space, with the tag asked for. -/
def LargeAns.Promise (env : Env) (p : Pol) (pages : Nat) : LargeAns → Prop
  | .null => True
  | .pages addr _ => env.cfg.pageSize ∣ addr ∧ p.kind.align ∣ addr ∧
      (∃ t, largeTag env p = some t ∧ getMemoryTag addr = t.val) ∧
      0 < addr ∧ addr + pages * env.cfg.pageSize ≤ 2 ^ 48

/-- The contract of one back-end answer: the promise for the size class (or page count) of the
request; whatever block comes out shares no byte and no address with a live block; and no byte of a
live block changed. -/
structure Ans.OK (env : Env) (p : Pol) (h : Heap) (size : Nat) (ans : Ans) : Prop where
  small : ∀ c bytes, getSizeClass env.cfg env.maps p.sm size = some (.small c) →
    env.maps.classToSize[c]? = some bytes → ans.small.Promise env p c bytes
  large : getSizeClass env.cfg env.maps p.sm size = some .large →
    ans.large.Promise env p (max (bytesToLengthCeil env.cfg size) 1)
  fresh : ∀ h' b cap, fastAlloc env p h size ans = .ok (h', some (b, cap)) →
    ∀ b' ∈ h.live, b.addr ≠ b'.addr ∧ ∀ a, ¬ (b.Has env a ∧ b'.Has env a)
  mem : ∀ b' ∈ h.live, ∀ a, b'.Has env a → ans.mem a = h.mem a

/-- Where a block belongs: the free list of its class, the page heap, or the guarded pages. -/
def Block.home (b : Block) : Dest :=
  if b.cls ≠ 0 then .small b.cls else if b.guarded then .guardedPages else .pages

end Verif.Frontend
