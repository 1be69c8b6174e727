import Verif.Arena.Props
/-! The hypotheses of the theorems about the arena are met: a story. -/
namespace Verif.Arena

variable {cfg : Cfg}

def disjB (p q : Nat × Nat) : Bool := decide (p.1 + p.2 ≤ q.1 ∨ q.1 + q.2 ≤ p.1)

theorem disjB_ok {p q : Nat × Nat} (h : disjB p q = true) : Disj p q := by
  unfold disjB at h
  rw [decide_eq_true_eq] at h
  intro x hx
  omega

def sysB (cfg : Cfg) (w : W) (bytes align : Nat) : Option (Nat × Nat) → Bool
  | none => true
  | some (p, n) => decide (0 < p ∧ askSize bytes ≤ n ∧ p % askAlign cfg align = 0) && w.sys.all (disjB (p, n))

theorem sysB_ok {w : W} {bytes align : Nat} {sys : Option (Nat × Nat)} (h : sysB cfg w bytes align sys = true) : SysOK cfg w bytes align sys := by
  cases sys with
  | none => trivial
  | some pn =>
    simp only [sysB, Bool.and_eq_true, decide_eq_true_eq, List.all_eq_true] at h
    exact ⟨h.1.1, h.1.2.1, h.1.2.2, fun s hs => disjB_ok (h.2 s hs)⟩

/-- An executable check of the precondition (a client writes one word, in what it has). -/
inductive Ev' where
  | alloc (bytes lg : Nat) (sys : Option (Nat × Nat))
  | new (sys : Option (Nat × Nat))
  | delete (p : Nat)
  | update (d e : Int)
  | store (x v : Nat)

def Ev'.ev (w : W) : Ev' → Ev
  | .alloc b lg s => .alloc b (2 ^ lg) s
  | .new s => .new s
  | .delete p => .delete p
  | .update d e => .update d e
  | .store x v => .write (upd w.a.mem x v)

def preB (cfg : Cfg) (w : W) : Ev' → Bool
  | .alloc b lg s => decide (0 < b ∧ b + 2 ^ lg < 2 ^ 64) && sysB cfg w b (2 ^ lg) s
  | .new s => sysB cfg w cfg.osize (2 ^ cfg.oalign) s
  | .delete p => w.use.contains p
  | .update d e => decide (0 ≤ (w.a.allocated : Int) + d ∧ 0 ≤ (w.a.nonresident : Int) + e)
  | .store x _ => (w.clients cfg).any fun r => decide (r.1 ≤ x ∧ x < r.1 + r.2)

theorem preB_ok {w : W} {e : Ev'} (h : preB cfg w e = true) : Pre cfg w (e.ev w) := by
  cases e with
  | alloc b lg s =>
    simp only [preB, Bool.and_eq_true, decide_eq_true_eq] at h
    exact ⟨h.1.1, ⟨lg, rfl⟩, h.1.2, sysB_ok h.2⟩
  | new s => exact sysB_ok h
  | delete p => exact List.contains_iff_mem.mp h
  | update d e =>
    simp only [preB, decide_eq_true_eq] at h
    exact h
  | store x v =>
    simp only [preB, List.any_eq_true, decide_eq_true_eq] at h
    obtain ⟨r, hr, h1, h2⟩ := h
    intro y _ hy
    refine if_neg fun e => ?_
    subst e
    have := hy r hr y
    dsimp only at this
    omega

def runAll (cfg : Cfg) : W → List Ev' → Option (W × List Out)
  | w, [] => some (w, [])
  | w, e :: es =>
    if preB cfg w e then
      (step cfg w (e.ev w)).bind fun (w', o) => (runAll cfg w' es).map fun (z, os) => (z, o :: os)
    else none

theorem runAll_reach : ∀ (es : List Ev') (x y : W) (os : List Out), Reach cfg x → runAll cfg x es = some (y, os) → Reach cfg y
  | [], x, y, os, h, e => by simp only [runAll, Option.some.injEq, Prod.mk.injEq] at e; rw [← e.1]; exact h
  | ev :: es, x, y, os, h, e => by
    unfold runAll at e
    split at e
    · rename_i hp
      rw [Option.bind_eq_some_iff] at e
      obtain ⟨⟨w', o⟩, h1, h2⟩ := e
      rw [Option.map_eq_some_iff] at h2
      obtain ⟨⟨z, os'⟩, h3, h4⟩ := h2
      cases h4
      exact runAll_reach es w' _ _ (.step h (preB_ok hp) h1) h3
    · cases e

/-- Pages of 8 KiB, spans of 96 bytes, objects of 48 bytes aligned to 16. -/
def demo : Cfg := ⟨13, 96, 48, 4⟩
theorem demo_ok : demo.OK := ⟨by decide, by decide, by decide⟩

/-- A small block, objects; a large request makes the arena keep the rest as a free block and ask the system again; a
client scribbles over what it has; the next requests come from the free block. -/
def story : List Ev' :=
  [.alloc 100 3 (some (0x100000, 131072)), .new none, .new none, .store 0x100008 77, .delete 0x100070,
   .alloc 200000 12 (some (0x200000, 204800)), .store 0x200000 5, .new none, .alloc 6000 3 none, .update (-100) 100, .alloc 7 0 none]

def storyOut : Option (List (Option Res × Bool)) := (runAll demo (W.init fun _ => 9) story).map fun x => x.2.map fun o => (o.res, o.asked)
def storyEnd : Option (List (Nat × Nat) × List Nat × Stats × Nat × Nat) :=
  (runAll demo (W.init fun _ => 9) story).map fun x => (x.1.raw, x.1.use, x.1.a.stats, x.1.inUse, x.1.total)

example : storyOut = some [(some (.ptr 0x100000), true), (some (.ptr 0x100070), false), (some (.ptr 0x1000a0), false), (none, false), (none, false),
      (some (.ptr 0x200000), true), (none, false), (some (.ptr 0x100070), false), (some (.ptr 0x1000d0), false), (none, false),
      (some (.ptr 0x101840), false)] ∧
    storyEnd = some ([(0x101840, 7), (0x1000d0, 6000), (0x200000, 200000), (0x100000, 100)], [0x100070, 0x1000a0],
      ⟨206115, 129657, 0, 100, 2, 1⟩, 2, 2) := by decide +kernel

theorem mid_some : (runAll demo (W.init fun _ => 9) story).isSome = true := by decide +kernel
def mid : W := ((runAll demo (W.init fun _ => 9) story).get mid_some).1

theorem mid_reach : Reach demo mid := by
  have h := (Option.some_get mid_some).symm
  exact runAll_reach story (W.init fun _ => 9) mid _ (.init _) h

example : (mid.clients demo).Pairwise Disj ∧ mid.use.Nodup := ⟨(clients_disjoint demo demo_ok mid mid_reach).1, (clients_disjoint demo demo_ok mid mid_reach).2.1⟩

/-- The hypotheses of `alloc_exact`, `asked_needed` (the system is asked) and `new_exact`. -/
example : Pre demo mid (.alloc 500000 64 (some (0x400000, 507904))) ∧ Pre demo mid (.new none) ∧
    ((step demo mid (.alloc 500000 64 (some (0x400000, 507904)))).map fun x => (x.2.res, x.2.asked)) = some (some (.ptr 0x400000), true) :=
  ⟨preB_ok (e := .alloc 500000 6 (some (0x400000, 507904))) (by decide +kernel), preB_ok (e := .new none) (by decide +kernel), by decide +kernel⟩

end Verif.Arena
