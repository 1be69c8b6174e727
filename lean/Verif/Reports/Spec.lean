/-! What the record of a crash should say (C87).  Nothing here refers to the fields of the record. -/
namespace Verif.Reports

/-- The families of allocation and deallocation, `AllocationType` in tcmalloc/malloc_extension.h. -/
inductive Family | new | malloc | alignedMalloc
  deriving Repr, DecidableEq

/-- An error for which the allocator stops the program, with what is known about it.  Stacks are lists of return addresses,
innermost first; `here` is the stack of the call that found the error. -/
inductive Error
  /-- a sized free of a sampled block with a size that was not asked for; `allocated` is known for size-returning allocations -/
  | sampledSize (ptr size requested : Nat) (allocated : Option Nat) (allocStack here : List Nat)
  /-- a sized free with a size outside `lo..hi` -/
  | wrongSize (ptr size lo hi : Nat) (here : List Nat)
  /-- an object found on the free list of another class: freed as `freedLo..freedHi` bytes, in a span for `lo..hi` bytes -/
  | wrongClass (ptr freedLo freedHi lo hi : Nat)
  | doubleFree (ptr : Nat) (here : List Nat)
  /-- a pointer that was never allocated -/
  | wild (ptr : Nat) (here : List Nat)
  /-- a pointer not aligned as every block there is -/
  | misaligned (ptr expected : Nat) (here : List Nat)
  /-- the same for a guarded block, whose allocation is known -/
  | misalignedGuarded (ptr expected : Nat) (allocStack here : List Nat)
  | wrongFamily (ptr : Nat) (alloc dealloc : Family) (allocStack here : List Nat)
  | wrongAlign (ptr : Nat) (alloc dealloc : Option Nat) (allocStack here : List Nat)
  deriving Repr, DecidableEq

/-- What a reader of the record learns. -/
inductive Details
  | sizes (givenLo givenHi lo hi : Nat)
  | none
  | aligns (actual expected : Option Nat)
  | families (alloc dealloc : Family)
  deriving Repr, DecidableEq

structure Seen where
  ptr : Nat
  details : Details
  allocStack : Option (List Nat)
  freeStack : Option (List Nat)
  deriving Repr, DecidableEq

/-- `k` is the alignment of address `a`: the largest power of two that divides it. -/
def AlignmentOf (a k : Nat) : Prop := ∃ e, k = 2 ^ e ∧ 2 ^ e ∣ a ∧ ¬ 2 ^ (e + 1) ∣ a

/-- `s` is the truth about error `e`, with stacks cut at 64 frames. -/
def Truth : Error → Seen → Prop
  | .sampledSize p n r a st h, s => s = ⟨p, .sizes n n r (a.getD r), some (st.take 64), some (h.take 64)⟩
  | .wrongSize p n lo hi h, s => s = ⟨p, .sizes n n lo hi, none, some (h.take 64)⟩
  | .wrongClass p fl fh lo hi, s => s = ⟨p, .sizes fl fh lo hi, none, none⟩
  | .doubleFree p h, s => s = ⟨p, .none, none, some (h.take 64)⟩
  | .wild p h, s => s = ⟨p, .aligns none none, none, some (h.take 64)⟩
  | .misaligned p x h, s => ∃ k, AlignmentOf p k ∧ s = ⟨p, .aligns (some k) (some x), none, some (h.take 64)⟩
  | .misalignedGuarded p x st h, s => ∃ k, AlignmentOf p k ∧ s = ⟨p, .aligns (some k) (some x), some (st.take 64), some (h.take 64)⟩
  | .wrongFamily p a d st h, s => s = ⟨p, .families a d, some (st.take 64), some (h.take 64)⟩
  | .wrongAlign p a d st h, s => s = ⟨p, .aligns d a, some (st.take 64), some (h.take 64)⟩

end Verif.Reports
