import Verif.PageAllocator.Spec
/-! Lemmas for the limits and releases. -/
namespace Verif.PageAllocator
open Verif.PageHeap
open Verif.HugeAddressMap (Rng)

variable {W : Type}

theorem total_cons (a : Ask) (l : List Ask) : total (a :: l) = a.got + total l := by simp [total]
theorem total_append (A B : List Ask) : total (A ++ B) = total A + total B := by simp [total]

theorem asksMissing_append (pages : Nat) : ∀ (A B : List Ask) (r : Nat), AsksMissing pages r A →
    AsksMissing pages (r + total A) B → AsksMissing pages r (A ++ B)
  | [], B, r, _, h => by simpa [total] using h
  | a :: A, B, r, h1, h2 => by
    refine ⟨h1.1, asksMissing_append pages A B _ h1.2 ?_⟩
    rw [total_cons] at h2
    rwa [Nat.add_assoc]

theorem releaseLoop_log (E : Env W) (num : Nat) : ∀ (hs : List Heap) (w : W) (r : Nat) {w' : W} {r' : Nat} {log : List Ask},
    releaseLoop E num hs w r = some (w', r', log) →
    log.map Ask.heap = hs ∧ (∀ a ∈ log, a.breaking = false) ∧ r' = r + total log ∧ AsksMissing num r log
  | [], w, r, w', r', log, h => by
    simp only [releaseLoop, Option.some.injEq, Prod.mk.injEq] at h
    obtain ⟨-, rfl, rfl⟩ := h
    exact ⟨rfl, by simp, by simp [total], trivial⟩
  | x :: hs, w, r, w', r', log, h => by
    unfold releaseLoop at h
    dsimp only at h
    split at h
    · cases h
    · rename_i w1 got e
      split at h
      · cases h
      · rename_i w2 r2 log2 e2
        cases h
        obtain ⟨i1, i2, i3, i4⟩ := releaseLoop_log E num hs w1 _ e2
        refine ⟨by simp [i1], ?_, by rw [total_cons]; dsimp only; omega, ?_, i4⟩
        · intro a ha
          rcases List.mem_cons.1 ha with rfl | ha
          · rfl
          · exact i2 a ha
        · show (if num > r then num - r else 0) = num - r
          split <;> omega

theorem breakLoop_log (E : Env W) (pages : Nat) : ∀ (hs : List Heap) (w : W) (r : Nat) {w' : W} {r' : Nat} {log : List Ask},
    r < pages → breakLoop E pages hs w r = some (w', r', log) →
    (log.map Ask.heap <+: hs) ∧ (∀ a ∈ log, a.breaking = true) ∧ r' = r + total log ∧ AsksMissing pages r log ∧
    (∀ B1 b B2, log = B1 ++ b :: B2 → r + total B1 < pages) ∧ (r' < pages → log.map Ask.heap = hs)
  | [], w, r, w', r', log, hr, h => by
    simp only [breakLoop, Option.some.injEq, Prod.mk.injEq] at h
    obtain ⟨-, rfl, rfl⟩ := h
    exact ⟨by simp, by simp, by simp [total], trivial, (fun B1 b B2 e => by cases B1 <;> cases e), fun _ => rfl⟩
  | x :: hs, w, r, w', r', log, hr, h => by
    unfold breakLoop at h
    rw [if_pos (by omega)] at h
    split at h
    · cases h
    · rename_i w1 got e
      split at h
      · rename_i hge
        cases h
        refine ⟨by simp, by simp, by simp [total], ⟨rfl, trivial⟩, ?_, fun hlt => by omega⟩
        intro B1 b B2 e
        cases B1 with
        | nil => simpa [total] using hr
        | cons y B1 => cases B1 <;> cases e
      · rename_i hlt
        split at h
        · cases h
        · rename_i w2 r2 log2 e2
          cases h
          obtain ⟨i1, i2, i3, i4, i5, i6⟩ := breakLoop_log E pages hs w1 _ (by omega) e2
          refine ⟨?_, ?_, by rw [total_cons]; dsimp only; omega, ⟨rfl, i4⟩, ?_, fun hlt => by simp [i6 hlt]⟩
          · rw [List.map_cons, List.prefix_cons_inj]; exact i1
          · intro a ha
            rcases List.mem_cons.1 ha with rfl | ha
            · rfl
            · exact i2 a ha
          · intro B1 b B2 e
            cases B1 with
            | nil => simpa [total] using hr
            | cons y B1 =>
              rw [List.cons_append, List.cons.injEq] at e
              have := i5 B1 b B2 e.2
              rw [total_cons, ← e.1]
              show r + (got + _) < _
              omega

/-- `ShrinkHardBy` is an attempt. -/
theorem shrinkHardBy_attempt (E : Env W) (c : Cfg) (sub : Bool) (w : W) (pages : Nat) (k : Kind) {w' : W} {ok : Bool} {log : List Ask}
    (h : shrinkHardBy E c sub w pages k = some (w', ok, log)) :
    Attempt c pages (k = .hard ∧ sub = false) log ok := by
  unfold shrinkHardBy releaseAtLeast at h
  split at h
  · cases h
  · rename_i w1 ret A e
    obtain ⟨a1, a2, a3, a4⟩ := releaseLoop_log E pages _ _ _ e
    rw [Nat.zero_add] at a3
    split at h
    · rename_i hge
      cases h
      refine ⟨⟨log, [], by simp, a1, a2, by simp, by simp, fun _ => rfl, fun _ => rfl, ?_, fun h => by cases h⟩, a4, ?_⟩
      · intro B1 b B2 e; cases B1 <;> cases e
      · simp; omega
    · rename_i hlt
      split at h
      · rename_i hf
        cases h
        refine ⟨⟨log, [], by simp, a1, a2, by simp, by simp, fun _ => rfl, fun _ => rfl, ?_, fun _ hn => absurd hf hn⟩, a4, ?_⟩
        · intro B1 b B2 e; cases B1 <;> cases e
        · simp; omega
      · rename_i hf
        split at h
        · cases h
        · rename_i w2 ret2 B e2
          cases h
          obtain ⟨b1, b2, b3, b4, b5, b6⟩ := breakLoop_log E pages _ _ _ (by omega) e2
          refine ⟨⟨A, B, rfl, a1, a2, b1, b2, fun h => by omega, fun h => absurd h hf, ?_, fun h _ => b6 ?_⟩, ?_, ?_⟩
          · intro B1 b B2 e
            have := b5 B1 b B2 e
            omega
          · simp only [decide_eq_false_iff_not] at h; omega
          · refine asksMissing_append _ _ _ _ a4 ?_
            rw [Nat.zero_add, ← a3]; exact b4
          · rw [decide_eq_true_eq, total_append]; omega

theorem lengthCeil_spec (c : Cfg) (hc : 0 < c.pageSize) (b : Nat) : CeilPages c b (lengthCeil c b) := by
  unfold CeilPages lengthCeil
  have h1 := Nat.div_add_mod b c.pageSize
  have h2 := Nat.mod_lt b hc
  rw [Nat.add_mul, Nat.mul_comm (b / c.pageSize)]
  split <;> omega

/-! ### The world of page heaps -/

theorem order_nodup (c : Cfg) : (order c).Nodup := by
  unfold order
  refine List.nodup_append.2 ⟨List.nodup_append.2 ⟨?_, ?_, ?_⟩, ?_, ?_⟩
  · split <;> simp
  · have : (List.range c.parts).Nodup := List.nodup_range
    exact (List.pairwise_map).2 (this.imp fun h e => h (by cases e; rfl))
  · intro a ha b hb e
    subst e
    split at ha <;> simp at ha hb
    subst ha
    simp at hb
  · split <;> simp
  · intro a ha b hb e
    subst e
    have : ∃ i, a = .sampled i := by
      split at hb <;> simp at hb
      · rcases hb with rfl | rfl <;> exact ⟨_, rfl⟩
      · exact ⟨_, hb⟩
    obtain ⟨i, rfl⟩ := this
    split at ha <;> simp at ha

theorem order_ne (c : Cfg) : order c ≠ [] := by
  have : Heap.sampled 0 ∈ order c := by
    unfold order
    refine List.mem_append_right _ ?_
    split
    · exact List.mem_cons_self
    · exact List.mem_cons_self
  exact List.ne_nil_of_mem this

theorem sum_setHeap (f : HP → Nat) (g : Heap → HP) (h : Heap) (s : HP) : ∀ (l : List Heap), l.Nodup → h ∈ l →
    (l.map fun x => f (setHeap g h s x)).sum + f (g h) = (l.map fun x => f (g x)).sum + f s
  | [], _, hm => by cases hm
  | a :: l, hn, hm => by
    rw [List.nodup_cons] at hn
    simp only [List.map_cons, List.sum_cons]
    by_cases e : a = h
    · subst e
      have hs : (l.map fun x => f (setHeap g a s x)) = l.map fun x => f (g x) := by
        refine List.map_congr_left fun x hx => ?_
        have : x ≠ a := fun e => hn.1 (e ▸ hx)
        simp [setHeap, this]
      rw [hs]
      have : setHeap g a s a = s := by simp [setHeap]
      rw [this]
      omega
    · have hm' : h ∈ l := by
        rcases List.mem_cons.1 hm with rfl | hm
        · exact absurd rfl e
        · exact hm
      have := sum_setHeap f g h s l hn.2 hm'
      have e2 : setHeap g h s a = g a := by simp [setHeap, e]
      rw [e2]
      omega

section
variable {H N : Nat} {mode : Bool} {c : Cfg} {mem : Heap → List Rng} {live : Heap → List Run}

/-- What calls of the heaps do to the world: `m` pages are reported. -/
structure Link (H N : Nat) (mode : Bool) (c : Cfg) (mem : Heap → List Rng) (live : Heap → List Run) (w w' : World) (m : Nat) : Prop where
  good : Good H N mode c mem live w'
  lim : w'.lim = w.lim
  metadata : w'.metadata = w.metadata
  app : w'.app = w.app
  exact : m + credit c w' + pages H N c w' = credit c w + pages H N c w
  credit : credit c w' ≤ credit c w
  pages_le : pages H N c w' ≤ pages H N c w
  script : ∃ k, ∀ i, w'.script i = w.script (i + k)
  cache : ∀ h, (w'.heaps h).cache.size ≤ (w.heaps h).cache.size
  keep : ∀ h ∈ order c, (w.heaps h).Exhausted N (fun _ => false) → (w'.heaps h).Exhausted N (fun _ => false)

theorem Link.refl {w : World} (hg : Good H N mode c mem live w) : Link H N mode c mem live w w 0 :=
  ⟨hg, rfl, rfl, rfl, by omega, Nat.le_refl _, Nat.le_refl _, ⟨0, fun _ => rfl⟩, fun _ => Nat.le_refl _, fun _ _ h => h⟩

theorem Link.trans {w w' w'' : World} {m n : Nat} (a : Link H N mode c mem live w w' m) (b : Link H N mode c mem live w' w'' n) :
    Link H N mode c mem live w w'' (m + n) := by
  obtain ⟨k, hk⟩ := a.script
  obtain ⟨j, hj⟩ := b.script
  have := a.exact
  have := b.exact
  refine ⟨b.good, b.lim.trans a.lim, b.metadata.trans a.metadata, b.app.trans a.app, by omega, Nat.le_trans b.credit a.credit,
    Nat.le_trans b.pages_le a.pages_le,
    ⟨j + k, fun i => by rw [hj, hk, Nat.add_assoc]⟩, fun h => Nat.le_trans (b.cache h) (a.cache h),
    fun h hh he => b.keep h hh (a.keep h hh he)⟩

theorem Link.willing {w w' : World} {m : Nat} (a : Link H N mode c mem live w w' m) (h : Willing w) : Willing w' := by
  obtain ⟨k, hk⟩ := a.script
  intro i
  rw [hk]
  exact h (i + k)

theorem Link.subreleasing {w w' : World} {m : Nat} (a : Link H N mode c mem live w w' m) (h : Subreleasing w) : Subreleasing w' := by
  obtain ⟨k, hk⟩ := a.script
  intro i
  rw [hk]
  exact h (i + k)

theorem skip_false {w : World} (h : Willing w) : (w.script 0).x.skip = fun _ => false := funext (h 0).2.2.2

theorem granted {w : World} (h : Willing w) (s : HP) : ((w.script 0).choice s).granted := by
  refine ⟨?_, (h 0).2.1, (h 0).2.2.1⟩
  intro b hb
  simp only [Pick.choice, List.mem_map] at hb
  obtain ⟨i, -, rfl⟩ := hb
  exact (h 0).1 i

/-- One call of a heap, from what it does to that heap. -/
theorem call_link {f : HP → Nat → Choice → Option (HP × Nat)} {w : World} {h : Heap} {n m : Nat} {s' : HP}
    (hg : Good H N mode c mem live w) (hh : h ∈ order c)
    (hf : f (w.heaps h) n ((w.script 0).choice (w.heaps h)) = some (s', m)) (hR : PageHeap.Reach H N mode s' (mem h) (live h))
    (hx : m + s'.fill.unacc + s'.backed H N = (w.heaps h).fill.unacc + (w.heaps h).backed H N)
    (hc : s'.fill.unacc ≤ (w.heaps h).fill.unacc) (hb : s'.backed H N ≤ (w.heaps h).backed H N) (hs : s'.cache.size ≤ (w.heaps h).cache.size)
    (hk : (w.heaps h).Exhausted N (fun _ => false) → s'.Exhausted N (fun _ => false)) :
    ∃ w', call f w h n = some (w', m) ∧ w'.heaps h = s' ∧ (∀ x, x ≠ h → w'.heaps x = w.heaps x) ∧
      Link H N mode c mem live w w' m := by
  refine ⟨{ w with heaps := setHeap w.heaps h s', script := fun i => w.script (i + 1) }, ?_, by simp [setHeap],
    fun x hx => by simp [setHeap, hx], ?_⟩
  · unfold call; rw [hf]
  · have p := sum_setHeap (fun s => s.backed H N) w.heaps h s' _ (order_nodup c) hh
    have q := sum_setHeap (fun s => s.fill.unacc) w.heaps h s' _ (order_nodup c) hh
    refine ⟨?_, rfl, rfl, rfl, ?_, ?_, ?_, ⟨1, fun _ => rfl⟩, ?_, ?_⟩
    · intro x hx
      show PageHeap.Reach H N mode (setHeap w.heaps h s' x) _ _
      by_cases e : x = h
      · subst e; simpa [setHeap] using hR
      · simpa [setHeap, e] using hg x hx
    · unfold PageAllocator.credit pages
      dsimp only at p q ⊢
      omega
    · unfold PageAllocator.credit
      dsimp only at p q ⊢
      omega
    · unfold pages
      dsimp only at p q ⊢
      omega
    · intro x
      show (setHeap w.heaps h s' x).cache.size ≤ _
      by_cases e : x = h
      · subst e; simpa [setHeap] using hs
      · simp [setHeap, e]
    · intro x hx he
      show (setHeap w.heaps h s' x).Exhausted N _
      by_cases e : x = h
      · subst e; simpa [setHeap] using hk he
      · simpa [setHeap, e] using he

theorem rel_world (hN : 2 ≤ N) (hH : 0 < H) {w : World} (hg : Good H N mode c mem live w) {h : Heap} (hh : h ∈ order c) (n : Nat) :
    ∃ w' m, (env H N mode c).rel w h n = some (w', m) ∧ Link H N mode c mem live w w' m ∧
      (∀ x, x ≠ h → w'.heaps x = w.heaps x) ∧
      (Willing w → m < n → (w'.heaps h).cache.size = 0 ∧
        (Subreleasing w → n ≤ lengthMax → FillerDone N (w'.heaps h).fill fun _ => false)) := by
  obtain ⟨s', m, e1, e2, e3, e4, eb, e5, e6, e7⟩ := heap_release hN hH (hg h hh) n ((w.script 0).choice (w.heaps h)) (by simp [Pick.choice])
  obtain ⟨w', g1, g2, go, g3⟩ := call_link (f := fun s n ch => s.releaseAtLeast H N mode n ch) hg hh e1 e2 e3 e4 eb e5 (e6 _)
  refine ⟨w', m, g1, g3, go, fun hw hlt => ?_⟩
  obtain ⟨i1, i2⟩ := e7 (granted hw _) hlt
  rw [show ((w.script 0).choice (w.heaps h)).x.skip = fun _ => false from skip_false hw] at i2
  rw [g2]
  exact ⟨i1, fun hs hn => i2 (hs 0).1 (hs 0).2 hn⟩

theorem brk_world (hN : 2 ≤ N) (hH : 0 < H) {w : World} (hg : Good H N mode c mem live w) {h : Heap} (hh : h ∈ order c) (n : Nat) :
    ∃ w' m, (env H N mode c).brk w h n = some (w', m) ∧ Link H N mode c mem live w w' m ∧
      (Willing w → m < n → (w'.heaps h).Exhausted N fun _ => false) := by
  obtain ⟨s', m, e1, e2, e3, e4, eb, e5, e6, e7⟩ := heap_break hN hH (hg h hh) n ((w.script 0).choice (w.heaps h)) (by simp [Pick.choice])
  obtain ⟨w', g1, g2, -, g3⟩ := call_link (f := fun s n ch => s.releaseBreaking H N mode n ch) hg hh e1 e2 e3 e4 eb e5 (e6 _)
  refine ⟨w', m, g1, g3, fun hw hlt => ?_⟩
  have := e7 (granted hw _) hlt
  rw [show ((w.script 0).choice (w.heaps h)).x.skip = fun _ => false from skip_false hw] at this
  rw [g2]; exact this

theorem releaseLoop_world (hN : 2 ≤ N) (hH : 0 < H) (num : Nat) : ∀ (hs : List Heap) (w : World) (r : Nat),
    Good H N mode c mem live w → (∀ h ∈ hs, h ∈ order c) → hs.Nodup →
    ∃ w' m log, releaseLoop (env H N mode c) num hs w r = some (w', r + m, log) ∧ Link H N mode c mem live w w' m ∧
      (∀ x, x ∉ hs → w'.heaps x = w.heaps x) ∧
      (Willing w → r + m < num → ∀ h ∈ hs, (w'.heaps h).cache.size = 0 ∧
        (Subreleasing w → num ≤ lengthMax → FillerDone N (w'.heaps h).fill fun _ => false))
  | [], w, r, hg, _, _ => ⟨w, 0, [], rfl, .refl hg, by simp, by simp⟩
  | h :: hs, w, r, hg, hin, hnd => by
    rw [List.nodup_cons] at hnd
    obtain ⟨w1, m1, e1, l1, o1, c1⟩ := rel_world hN hH hg (hin h (by simp)) (if num > r then num - r else 0)
    obtain ⟨w2, m2, log, e2, l2, o2, c2⟩ :=
      releaseLoop_world hN hH num hs w1 (r + m1) l1.good (fun x hx => hin x (by simp [hx])) hnd.2
    refine ⟨w2, m1 + m2, ⟨h, false, if num > r then num - r else 0, m1⟩ :: log, ?_, l1.trans l2, ?_, fun hw hlt x hx => ?_⟩
    · unfold releaseLoop; dsimp only; rw [e1]; simp only []; rw [e2]; simp only [Nat.add_assoc]
    · intro x hx
      rw [List.mem_cons, not_or] at hx
      rw [o2 x hx.2, o1 x hx.1]
    · rcases List.mem_cons.1 hx with rfl | hx
      · rw [o2 x hnd.1]
        obtain ⟨i1, i2⟩ := c1 hw (by rw [if_pos (by omega)]; omega)
        exact ⟨i1, fun hs hn => i2 hs (by split <;> omega)⟩
      · obtain ⟨i1, i2⟩ := c2 (l1.willing hw) (by omega) x hx
        exact ⟨i1, fun hs hn => i2 (l1.subreleasing hs) hn⟩

theorem breakLoop_world (hN : 2 ≤ N) (hH : 0 < H) (pages : Nat) : ∀ (hs : List Heap) (w : World) (r : Nat),
    Good H N mode c mem live w → (∀ h ∈ hs, h ∈ order c) → r < pages →
    ∃ w' m log, breakLoop (env H N mode c) pages hs w r = some (w', r + m, log) ∧ Link H N mode c mem live w w' m ∧
      (Willing w → r + m < pages → ∀ h ∈ hs, (w'.heaps h).Exhausted N fun _ => false)
  | [], w, r, hg, _, _ => ⟨w, 0, [], rfl, .refl hg, by simp⟩
  | h :: hs, w, r, hg, hin, hr => by
    obtain ⟨w1, m1, e1, l1, c1⟩ := brk_world hN hH hg (hin h (by simp)) (pages - r)
    by_cases hge : pages ≤ r + m1
    · refine ⟨w1, m1, [⟨h, true, pages - r, m1⟩], ?_, l1, fun _ hlt => by omega⟩
      unfold breakLoop; rw [if_pos (by omega), e1]; simp only []; rw [if_pos hge]
    · obtain ⟨w2, m2, log, e2, l2, c2⟩ := breakLoop_world hN hH pages hs w1 (r + m1) l1.good (fun x hx => hin x (by simp [hx])) (by omega)
      refine ⟨w2, m1 + m2, ⟨h, true, pages - r, m1⟩ :: log, ?_, l1.trans l2, fun hw hlt x hx => ?_⟩
      · unfold breakLoop; rw [if_pos (by omega), e1]; simp only []; rw [if_neg hge, e2]; simp only [Nat.add_assoc]
      · rcases List.mem_cons.1 hx with rfl | hx
        · exact l2.keep x (hin x (by simp)) (c1 hw (by omega))
        · exact c2 (l1.willing hw) (by omega) x hx

theorem shrinkHardBy_world (hN : 2 ≤ N) (hH : 0 < H) (sub : Bool) {w : World} (hg : Good H N mode c mem live w) (pages : Nat) (k : Kind) :
    ∃ w' m ok log, shrinkHardBy (env H N mode c) c sub w pages k = some (w', ok, log) ∧ Link H N mode c mem live w w' m ∧
      (ok = true ↔ pages ≤ m) ∧ m = total log ∧
      (Willing w → ok = false → ¬ (k = .hard ∧ sub = false) → Exhausted N c w') := by
  obtain ⟨w1, m1, A, e1, l1, -, c1⟩ := releaseLoop_world hN hH pages (order c) w 0 hg (fun _ h => h) (order_nodup c)
  rw [Nat.zero_add] at e1
  have t1 := (releaseLoop_log _ _ _ _ _ e1).2.2.1
  rw [Nat.zero_add] at t1
  unfold shrinkHardBy releaseAtLeast
  rw [e1]
  simp only []
  by_cases hge : pages ≤ m1
  · rw [if_pos hge]
    exact ⟨w1, m1, true, A, rfl, l1, by simp [hge], t1, fun _ h => by cases h⟩
  · rw [if_neg hge]
    by_cases hf : k = .hard ∧ sub = false
    · rw [if_pos hf]
      exact ⟨w1, m1, false, A, rfl, l1, by simp; omega, t1, fun _ _ h => absurd hf h⟩
    · rw [if_neg hf]
      obtain ⟨w2, m2, B, e2, l2, c2⟩ := breakLoop_world hN hH pages (order c) w1 m1 l1.good (fun _ h => h) (by omega)
      have t2 := (breakLoop_log _ _ _ _ _ (by omega) e2).2.2.1
      rw [e2]
      refine ⟨w2, m1 + m2, _, _, rfl, l1.trans l2, by simp, by rw [total_append]; omega, fun hw hok _ h hh => ?_⟩
      simp only [decide_eq_false_iff_not] at hok
      exact c2 (l1.willing hw) (by omega) h hh

end

end Verif.PageAllocator
