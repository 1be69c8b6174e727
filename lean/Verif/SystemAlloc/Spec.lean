import Verif.SystemAlloc.Model
/-! What the kernel and the callers of the system allocator guarantee, and the reachable states. -/
namespace Verif.SystemAlloc
open Verif.MemoryTag

/-- Two ranges (address, length) have no byte in common. -/
def Disj (p q : Nat × Nat) : Prop := ∀ x, ¬((p.1 ≤ x ∧ x < p.1 + p.2) ∧ q.1 ≤ x ∧ x < q.1 + q.2)

/-- All bytes of a range are in the part of the address space reserved for a tag. -/
def Tagged (tag : Tag) (p : Nat × Nat) : Prop := ∀ x, p.1 ≤ x → x < p.1 + p.2 → getMemoryTag x = tag.val

/-- The sizes of pages and hugepages, and that of mappings (common.h:243-245), which is used as an alignment. -/
structure Cfg.OK (c : Cfg) : Prop where
  page : c.pageBits ≤ c.hugeBits
  huge : c.hugeBits ≤ c.mmapBits
  mmap : c.mmapBits ≤ 42

/-- The address of the `i`-th attempt to map. -/
def attempt (w : W) (size alignment : Nat) (tag : Tag) (o : Oracle) : Nat → Nat
  | 0 => if usable (w.next tag) size alignment tag then w.next tag else hintAddr size alignment tag (o.rnd 0)
  | i + 1 => hintAddr size alignment tag (o.rnd (i + 1))

/-- What the kernel promises about `mmap`: what it maps was free, and with `MAP_FIXED_NOREPLACE` it maps where asked or
fails.  And the loop that looks for an address ends with one that is not 0. -/
structure EnvOK (c : Cfg) (w : W) (size alignment : Nat) (tag : Tag) (o : Oracle) : Prop where
  free : ∀ i r, o.kern i = some r → ∀ m ∈ w.mapped, Disj (r, size) m
  fixed : c.noreplace = true → ∀ i r, o.kern i = some r → r = attempt w size alignment tag o i
  hint : ∀ i, hintAddr size alignment tag (o.rnd i) ≠ 0

/-- What a region of another factory promises (malloc_extension.h:342-350): at least the size, aligned, within the
region; and not what it has returned before. -/
def CustOK (given : List (Nat × Nat)) (start size request alignment : Nat) (ans : Option (Nat × Nat)) : Prop :=
  ∀ p n, ans = some (p, n) →
    request ≤ n ∧ p % alignment = 0 ∧ start ≤ p ∧ p + n ≤ start + size ∧ ∀ g ∈ given, Disj (p, n) g

/-- What an `Allocate` asks the kernel for. -/
def Cfg.large (c : Cfg) (bytes alignment : Nat) : Prop := c.minMmap < bytes ∨ c.minMmap < max alignment c.page
instance (c : Cfg) (b a : Nat) : Decidable (c.large b a) := by unfold Cfg.large; exact inferInstance

def Cfg.askSize (c : Cfg) (bytes alignment : Nat) : Nat := if c.large bytes alignment then roundUp bytes c.huge else c.minMmap
def Cfg.askAlign (c : Cfg) (bytes alignment : Nat) : Nat :=
  if c.large bytes alignment then max (max alignment c.page) c.huge else c.minMmap

/-- What callers and the environment guarantee. -/
def Pre (c : Cfg) (w : W) : Ev → Prop
  | .allocate bytes alignment tag o =>
    0 < bytes ∧ bytes < 2 ^ 64 ∧ (alignment = 0 ∨ ∃ i, alignment = 2 ^ i ∧ i < 64) ∧ c.supports tag = true ∧
    EnvOK c w (c.askSize bytes alignment) (c.askAlign bytes alignment) tag o ∧
    (¬ c.large bytes alignment → ∀ r, w.region tag = some r → r.custom = true → CustOK w.given r.start r.size bytes (max alignment c.page) o.cust1) ∧
    (w.custom = true → ∀ w1 ptr, mmapLocked c w (c.askSize bytes alignment) (c.askAlign bytes alignment) tag o = some (w1, some ptr) →
      if c.large bytes alignment then
        CustOK w.given ptr (c.askSize bytes alignment) (roundUp bytes c.huge) (c.askAlign bytes alignment) o.cust1
      else CustOK w.given ptr c.minMmap bytes (max alignment c.page) o.cust2)
  | .mmapAligned size alignment tag o =>
    -- the comment at lines 185-186 says `kTagMask`: see `documented_bound_too_large`
    0 < size ∧ size ≤ kTagFree ∧ (∃ i, alignment = 2 ^ i ∧ i ≤ 42) ∧ c.supports tag = true ∧ EnvOK c w size alignment tag o
  | .setFactory _ => True

/-- Reachable states. -/
inductive Reach (c : Cfg) : W → Prop
  | init : Reach c W.init
  | step {w e w' res} : Reach c w → Pre c w e → SystemAlloc.step c w e = some (w', res) → Reach c w'

end Verif.SystemAlloc
