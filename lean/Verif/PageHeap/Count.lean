import Verif.PageHeap.Place
/-! Counting pages: of the runs, of the parts of the page heap. -/
namespace Verif.PageHeap
open Verif.HugeAddressMap Verif.HugeAllocator
open Verif.PageTracker (Alloc PT)
open Verif.HugeRegion (hlFromPages)

variable {H N : Nat} {mode : Bool}
variable {s : HP} {ob : List Rng} {L : List Run} {ow : PSet} {u : Nat} {fg : Filler.Gh} {rg : HugeRegion.Gh} {runs : List X}

theorem sum_add {α : Type} (f g : α → Nat) : ∀ l : List α, (l.map fun x => f x + g x).sum = (l.map f).sum + (l.map g).sum
  | [] => rfl
  | a :: l => by simp only [List.map_cons, List.sum_cons, sum_add f g l]; omega

theorem sum_zero {α : Type} {f : α → Nat} : ∀ {l : List α}, (∀ x ∈ l, f x = 0) → (l.map f).sum = 0
  | [], _ => rfl
  | a :: l, h => by
    simp only [List.map_cons, List.sum_cons]
    rw [h a (by simp), sum_zero (fun x hx => h x (by simp [hx]))]

theorem sum_pick {a c : Nat} : ∀ {T : List Nat}, T.Nodup → a ∈ T → (T.map fun id => if a = id then c else 0).sum = c
  | [], _, h => by cases h
  | b :: T, hnd, h => by
    have hnd := List.nodup_cons.1 hnd
    simp only [List.map_cons, List.sum_cons]
    by_cases e : a = b
    · subst e
      rw [if_pos rfl, sum_zero (fun x hx => if_neg (fun e : a = x => hnd.1 (e ▸ hx)))]
      rfl
    · rw [if_neg e, sum_pick hnd.2 (by rcases List.mem_cons.1 h with h | h; exact absurd h e; exact h)]
      omega

def optN {β : Type} (w : β → Nat) : Option β → Nat
  | none => 0
  | some b => w b

theorem sum_fm {α β : Type} (g : α → Option β) (w : β → Nat) : ∀ l : List α,
    ((l.filterMap g).map w).sum = (l.map fun x => optN w (g x)).sum
  | [] => rfl
  | a :: l => by
    rw [List.filterMap_cons, List.map_cons, List.sum_cons, ← sum_fm g w l]
    cases g a with
    | none => simp [optN]
    | some b => simp [optN]

theorem double {α β : Type} (g : Nat → α → Option β) (w : β → Nat) (W : α → Nat) (T : List Nat) : ∀ {l : List α},
    (∀ x ∈ l, (T.map fun id => optN w (g id x)).sum = W x) →
    (T.map fun id => ((l.filterMap (g id)).map w).sum).sum = (l.map W).sum
  | [], _ => by simp [sum_zero]
  | a :: l, h => by
    have ih := double g w W T (l := l) (fun x hx => h x (by simp [hx]))
    have ha := h a (by simp)
    simp only [sum_fm] at ih ⊢
    simp only [List.map_cons, List.sum_cons]
    rw [sum_add, ih, ha]

/-- The pages of a run that the filler, a region, or nobody counts. -/
def fw : X → Nat
  | (_, .fill _ a) => a.n
  | (_, .tail _ _ _ a) => a.n
  | _ => 0
def rw' : X → Nat
  | (r, .region _ _) => r.n
  | _ => 0
def ww : X → Nat
  | (_, .whole _ hl) => hl
  | (_, .tail _ hl _ _) => hl
  | _ => 0

theorem valid_n {x : X} (h : Valid N s x) : x.1.n = fw x + rw' x + ww x * N := by
  obtain ⟨r, kd⟩ := x
  cases kd with
  | fill id a => simp only [fw, rw', ww]; rw [h.2.1]; omega
  | region id i => simp only [fw, rw', ww]; omega
  | whole hp hl => simp only [fw, rw', ww]; rw [h.2.2.1]; omega
  | tail hp hl id a => simp only [fw, rw', ww]; rw [h.2.2.2.2.2.1]; omega

theorem K.held_of (k : K H N mode s ob L [] [] [] ow u fg rg runs) (hN : 2 ≤ N) {x : X} (hx : x ∈ runs) {id : Nat} {a : Alloc}
    (hf : fpart id x = some a) : id ∈ fg.held := by
  have := (k.inFiller hN hx hf).1
  refine ((k.fill.k hN).1.held id).2 ?_
  intro hc; rw [hc] at this; cases this

theorem K.sum_filler (k : K H N mode s ob L [] [] [] ow u fg rg runs) (hN : 2 ≤ N) :
    (fg.held.map fun id => Filler.usedPages (fg.live id)).sum = (runs.map fw).sum := by
  have hnd := (k.fill.k hN).1.held_nd
  have h1 : (fg.held.map fun id => Filler.usedPages (fg.live id)).sum =
      (fg.held.map fun id => ((runs.filterMap (fpart id)).map Alloc.n).sum).sum := by
    congr 1
    refine List.map_congr_left (fun id _ => ?_)
    exact ((k.flive id).map _).sum_nat
  rw [h1]
  refine double fpart Alloc.n fw fg.held (fun x hx => ?_)
  obtain ⟨r, kd⟩ := x
  cases kd with
  | fill id a =>
    have : (fun id' => optN Alloc.n (fpart id' (r, Kind.fill id a))) = fun id' => if id = id' then a.n else 0 := by
      funext id'; simp only [fpart]; split <;> simp [optN]
    rw [this]
    exact sum_pick hnd (k.held_of hN hx (by simp [fpart]; rfl))
  | tail hp hl id a =>
    have : (fun id' => optN Alloc.n (fpart id' (r, Kind.tail hp hl id a))) = fun id' => if id = id' then a.n else 0 := by
      funext id'; simp only [fpart]; split <;> simp [optN]
    rw [this]
    exact sum_pick hnd (k.held_of hN hx (by simp [fpart]; rfl))
  | region id i => exact sum_zero (fun _ _ => rfl)
  | whole hp hl => exact sum_zero (fun _ _ => rfl)

theorem K.sum_regions (k : K H N mode s ob L [] [] [] ow u fg rg runs) (hN : 0 < N) :
    (s.regs.ids.map fun id => ((rg.live id).map Prod.snd).sum).sum = (runs.map rw').sum := by
  have hnd := (k.regs.ks hN).nodup
  have h1 : (s.regs.ids.map fun id => ((rg.live id).map Prod.snd).sum).sum =
      (s.regs.ids.map fun id => ((runs.filterMap (rpart id)).map Prod.snd).sum).sum := by
    congr 1
    refine List.map_congr_left (fun id hid => ?_)
    exact ((k.rlive id hid).map _).sum_nat
  rw [h1]
  refine double rpart Prod.snd rw' s.regs.ids (fun x hx => ?_)
  obtain ⟨r, kd⟩ := x
  cases kd with
  | region id i =>
    have : (fun id' => optN Prod.snd (rpart id' (r, Kind.region id i))) = fun id' => if id = id' then r.n else 0 := by
      funext id'; simp only [rpart]; split <;> simp [optN]
    rw [this]
    exact sum_pick hnd (k.valid _ hx).1
  | fill id a => exact sum_zero (fun _ _ => rfl)
  | tail hp hl id a => exact sum_zero (fun _ _ => rfl)
  | whole hp hl => exact sum_zero (fun _ _ => rfl)

theorem lenSum_map {α : Type} (f : α → Rng) : ∀ l : List α, lenSum (l.map f) = (l.map fun x => (f x).n).sum
  | [] => rfl
  | a :: l => by simp only [List.map_cons, lenSum, List.sum_cons, lenSum_map f l]

theorem lenSum_eq (l : List Rng) : lenSum l = (l.map Rng.n).sum := by
  have := lenSum_map (fun x : Rng => x) l
  simpa using this

theorem sum_ones {α : Type} (c : Nat) : ∀ l : List α, (l.map fun _ => c).sum = l.length * c
  | [] => by simp
  | a :: l => by simp only [List.map_cons, List.sum_cons, sum_ones c l, List.length_cons, Nat.add_mul]; omega

theorem K.sum_raw : lenSum (runs.filterMap rawPart) = (runs.map ww).sum := by
  rw [lenSum_eq, sum_fm]
  congr 1
  refine List.map_congr_left (fun x _ => ?_)
  obtain ⟨r, kd⟩ := x
  cases kd <;> rfl

theorem sum_pend (l : List PendPut) : lenSum (l.filterMap PendPut.raw) =
    (l.map PendPut.before).sum := by
  rw [lenSum_eq, sum_fm]
  congr 1
  refine List.map_congr_left (fun x _ => ?_)
  unfold PendPut.raw PendPut.before
  cases x.k <;> rfl

/-- The hugepages owned by the parts. -/
theorem K.sum_owners (k : K H N mode s ob L [] [] [] ow u fg rg runs) :
    lenSum (owners s (trackers s [] fg) runs []) = fg.held.length + s.puts.length + s.fill.freed.length + (runs.map ww).sum +
      s.refills.length + (s.puts.map PendPut.before).sum + s.regs.ids.length * H := by
  unfold owners
  simp only [lenSum_append, K.sum_raw, sum_pend, lenSum_map, sum_ones]
  rw [show lenSum ([] : List Rng) = 0 from rfl, lenSum_eq s.cache.taken, (k.taken.map Rng.n).sum_nat, List.map_map]
  have : (Rng.n ∘ fun id => (⟨(s.regs.reg id).loc, H⟩ : Rng)) = fun _ => H := rfl
  rw [this, sum_ones]
  unfold trackers Filler.ids
  simp only [List.nil_append, List.length_append, List.length_map, k.flight]
  omega

theorem lenSum_perm_cov {A B : List Rng} (hA : Disj A) (hB : Disj B) (h : ∀ p, Cov A p ↔ Cov B p) : lenSum A = lenSum B :=
  Nat.le_antisymm (lenSum_le hA fun p => (h p).1) (lenSum_le hB fun p => (h p).2)

theorem cov_append {A B : List Rng} {p : Nat} : Cov (A ++ B) p ↔ Cov A p ∨ Cov B p := by
  unfold Cov
  constructor
  · rintro ⟨r, hr, hp⟩
    rcases List.mem_append.1 hr with h | h
    · exact Or.inl ⟨r, h, hp⟩
    · exact Or.inr ⟨r, h, hp⟩
  · rintro (⟨r, hr, hp⟩ | ⟨r, hr, hp⟩)
    · exact ⟨r, List.mem_append_left _ hr, hp⟩
    · exact ⟨r, List.mem_append_right _ hr, hp⟩

theorem disj_append {A B : List Rng} (hA : Disj A) (hB : Disj B) (h : ∀ p, Cov A p → ¬ Cov B p) : Disj (A ++ B) := by
  unfold Disj
  rw [List.pairwise_append]
  exact ⟨hA, hB, fun a ha b hb p h1 h2 => h p ⟨a, ha, h1⟩ ⟨b, hb, h2⟩⟩

theorem K.sum_all (k : K H N mode s ob L [] [] [] ow u fg rg runs) :
    lenSum ob = lenSum (ranges s.cache.alloc.free.root) + lenSum (ranges s.cache.cache.root) + lenSum s.cache.busy +
      lenSum (owners s (trackers s [] fg) runs []) := by
  have c := k.cache.K
  have co := HugeCache.conservation k.cache
  have d : Disj (ranges s.cache.alloc.free.root ++ (ranges s.cache.cache.root ++ (s.cache.busy ++ owners s (trackers s [] fg) runs []))) := by
    refine disj_append (Sep.disj c.j.inv.sep) (disj_append (Sep.disj c.inv.sep) (disj_append c.disj k.own.disj ?_) ?_) ?_
    · intro p h1 h2; exact c.bo p h1 ((k.own.cov p).2 h2)
    · intro p h1 h2
      rcases cov_append.1 h2 with h | h
      · exact c.cb p h1 h
      · exact c.co p h1 ((k.own.cov p).2 h)
    · intro p h1 h2
      have := co.2.1 p h1
      rcases cov_append.1 h2 with h | h
      · exact this.1 h
      rcases cov_append.1 h with h | h
      · exact this.2.1 h
      · exact this.2.2 ((k.own.cov p).2 h)
  rw [lenSum_perm_cov c.j.disj d (fun p => by rw [cov_append, cov_append, cov_append, co.1 p, k.own.cov p])]
  simp only [lenSum_append]
  omega

theorem K.stats (k : K H N mode s ob L [] [] [] ow u fg rg runs) (hN : 2 ≤ N) :
    ∃ st, s.stats H N = some st ∧ st.system = lenSum ob * N ∧
      st.system = st.free + st.unmapped + (L.map Run.n).sum + s.pending * N := by
  have h0 : 0 < N := by omega
  obtain ⟨a1, a2, a3, a4, a5, ⟨fr, b1, b2, b3⟩, a6⟩ := Filler.accounting_exact hN k.fill
  obtain ⟨c1, c2, c3, c4, c5, st, d1, d2, d3, d4, d5⟩ := HugeRegion.set_exact h0 k.regs
  have c := k.cache.K
  unfold HP.stats
  rw [b1, d1]
  refine ⟨_, rfl, ?_, ?_⟩
  · show _ * N = _
    rw [c.j.sys]
  · show s.cache.alloc.fromSystem * N = s.cache.size * N + fr + st.free +
      (s.cache.alloc.free.total * N + s.fill.unmapped + st.unmapped) + (L.map Run.n).sum + s.pending * N
    have hL : (L.map Run.n).sum = (runs.map fw).sum + (runs.map rw').sum + (runs.map ww).sum * N := by
      rw [← (k.perm.map Run.n).sum_nat, List.map_map]
      have : ∀ l : List X, (∀ x ∈ l, Valid N s x) →
          (l.map (Run.n ∘ Prod.fst)).sum = (l.map fw).sum + (l.map rw').sum + (l.map ww).sum * N := by
        intro l
        induction l with
        | nil => intro _; simp
        | cons x l ih =>
          intro h
          have := valid_n (h x (by simp))
          simp only [List.map_cons, List.sum_cons, Function.comp_apply, Nat.add_mul, ih (fun y hy => h y (by simp [hy])), this]
          omega
      exact this runs k.valid
    have hf : s.fill.alloc false + s.fill.alloc true = (runs.map fw).sum := by
      rw [← k.sum_filler hN, (k.fill.k hN).1.alloc, (k.fill.k hN).1.alloc, ← Filler.sumOn_add]
      show _ = Filler.sumOn (fun id => Filler.usedPages (fg.live id)) fg.held
      refine Filler.sumOn_congr (fun x hx => ?_)
      rw [← (k.fill.k hN).1.used_eq hx]
      unfold Filler.usedIn
      cases (s.fill.tr x).dense <;> simp
    have hall := k.sum_all
    rw [k.sum_owners] at hall
    rw [c.j.sys, hall, c.size, c.inv.total, c.j.inv.total, hL]
    rw [k.sum_regions h0] at d5
    rw [d2, c2] at d5
    rw [a3, hf] at b3
    unfold HP.pending
    simp only [Nat.add_mul] at *
    rw [Nat.mul_assoc]
    omega

end Verif.PageHeap
