import Verif.PageAllocator.Lemmas
/-!
The properties of the memory limits (C32, C47, C49) and of the release requests (C33, C48), over any reachable states of
the page heaps.  `Story.lean` has the witnesses and the negations.
-/
namespace Verif.PageAllocator
open Verif.PageHeap
open Verif.HugeAddressMap (Rng)

variable {H N : Nat} {mode : Bool} {c : Cfg} {mem : Heap → List Rng} {live : Heap → List Run}

/-- The states around a check of the limits differ from the calls of the heaps only by the limits and counters. -/
theorem Good.lim {w : World} (h : Good H N mode c mem live w) (l : Lim) : Good H N mode c mem live { w with lim := l } := h

/-- **C32 (within the limit).**  Without a soft limit, or with the usage within it, nothing is asked of any heap; the
high water mark becomes the maximum of itself and the usage. -/
theorem within_limit (sub : Bool) (w : World) (n : Nat) (h : w.lim.soft = sizeMax ∨ usage H N c w ≤ w.lim.soft) :
    ∃ w', shrinkToLimit (env H N mode c) c sub w n = some (w', .returned, []) ∧ w'.heaps = w.heaps ∧
      w'.lim.peak = max w.lim.peak (usage H N c w) ∧ w'.lim.soft = w.lim.soft ∧ w'.lim.hard = w.lim.hard := by
  have hu : (env H N mode c).usage w = usage H N c w := rfl
  unfold shrinkToLimit notePeak
  rw [hu]
  by_cases hp : usage H N c w > ((env H N mode c).st w).peak
  · rw [if_pos hp]
    refine ⟨{ w with lim := { w.lim with peak := usage H N c w, peakApp := w.app + n * c.pageSize } }, ?_, rfl, ?_, rfl, rfl⟩
    · rcases h with h | h
      · exact if_pos h
      · dsimp only
        split
        · rfl
        · exact if_pos h
    · have : usage H N c w > w.lim.peak := hp
      dsimp only; omega
  · rw [if_neg hp]
    refine ⟨w, ?_, rfl, ?_, rfl, rfl⟩
    · rcases h with h | h
      · exact if_pos h
      · dsimp only
        split
        · rfl
        · exact if_pos h
    · have : ¬ usage H N c w > w.lim.peak := hp
      omega

theorem notePeak_spec (w : World) (n : Nat) : ∃ l, notePeak (env H N mode c) c w n = { w with lim := l } ∧
    l.soft = w.lim.soft ∧ l.hard = w.lim.hard ∧ l.hitsHard = w.lim.hitsHard ∧ l.okHard = w.lim.okHard := by
  unfold notePeak
  split
  · exact ⟨_, rfl, rfl, rfl, rfl, rfl⟩
  · exact ⟨w.lim, rfl, rfl, rfl, rfl, rfl⟩

theorem usage_link {w w' : World} {m : Nat} (a : Link H N mode c mem live w w' m) :
    m * c.pageSize + credit c w' * c.pageSize + usage H N c w' = credit c w * c.pageSize + usage H N c w := by
  have := congrArg (· * c.pageSize) a.exact
  simp only [Nat.add_mul] at this
  unfold usage
  rw [a.metadata]
  omega

/-- **C32 (over the limit).**  Over a soft limit the heaps are asked, in order and each for what is missing, for the
least number of pages covering the excess over the soft limit (hugepages may be broken up if need be).  If they report
fewer and the usage `u` reached is over the hard limit, they are asked in the same way for the excess over the hard limit
(without breaking hugepages if that is turned off), and the process is aborted exactly when they report fewer again.
The memory obtained and the runs in use are the same before and after; the reported pages account for the change of the
usage but for pages returned earlier and not yet reported (`credit`). -/
theorem over_limit (hN : 2 ≤ N) (hH : 0 < H) (hp : 0 < c.pageSize) (sub : Bool) (w : World) (n : Nat)
    (hg : Good H N mode c mem live w) (hm : w.lim.soft ≠ sizeMax) (hs : w.lim.soft < usage H N c w) :
    ∃ w' o log p A ok B u, shrinkToLimit (env H N mode c) c sub w n = some (w', o, log) ∧ Good H N mode c mem live w' ∧
      CeilPages c (usage H N c w - w.lim.soft) p ∧ log = A ++ B ∧ Attempt c p False A ok ∧
      (usage H N c w ≤ u + total A * c.pageSize ∧ u + total A * c.pageSize ≤ usage H N c w + credit c w * c.pageSize) ∧
      (usage H N c w' ≤ u ∧ u ≤ usage H N c w) ∧
      (ok = true → o = .returned ∧ B = []) ∧
      (ok = false → w.lim.hard ≥ sizeMax ∨ u ≤ w.lim.hard → o = .returned ∧ B = []) ∧
      (B = [] → usage H N c w' = u) ∧
      (ok = false → w.lim.hard < sizeMax → w.lim.hard < u →
        ∃ p2 ok2, CeilPages c (u - w.lim.hard) p2 ∧ Attempt c p2 (sub = false) B ok2 ∧ (o = .aborted ↔ ok2 = false) ∧
          (u ≤ usage H N c w' + total B * c.pageSize ∧
            usage H N c w' + total B * c.pageSize ≤ u + credit c w * c.pageSize)) ∧
      (ok = false → Willing w → Exhausted N c w') ∧
      (w'.lim.soft = w.lim.soft ∧ (o ≠ .aborted → w'.lim.hard = w.lim.hard)) := by
  have hu : (env H N mode c).usage w = usage H N c w := rfl
  obtain ⟨l, hl, l1, l2, -, -⟩ := notePeak_spec (H := H) (N := N) (mode := mode) (c := c) w n
  unfold shrinkToLimit
  rw [hl, hu]
  dsimp only
  rw [show (env H N mode c).st { w with lim := l } = l from rfl, if_neg (by rw [l1]; exact hm), if_neg (by rw [l1]; omega), l1]
  generalize hL : ({ l with soft := w.lim.soft, hitsSoft := l.hitsSoft + 1, hitsHard := if l.hard < usage H N c w then l.hitsHard + 1 else l.hitsHard } : Lim) = L
  have hLh : L.hard = w.lim.hard := by rw [← hL]; exact l2
  have hLs : L.soft = w.lim.soft := by rw [← hL]
  rw [show (env H N mode c).put { w with lim := l } L = { w with lim := L } from rfl]
  have hg1 : Good H N mode c mem live { w with lim := L } := hg.lim L
  have hcp := lengthCeil_spec c hp (usage H N c w - w.lim.soft)
  obtain ⟨w2, m, ok, A, e, k, hok, ht, hex⟩ := shrinkHardBy_world hN hH sub hg1 (lengthCeil c (usage H N c w - w.lim.soft)) .soft
  have hat := shrinkHardBy_attempt _ _ _ _ _ _ e
  have hat' : Attempt c (lengthCeil c (usage H N c w - w.lim.soft)) False A ok := by
    have hF : (Kind.soft = Kind.hard ∧ sub = false) = False := by simp
    rwa [hF] at hat
  have hul := usage_link k
  rw [show usage H N c { w with lim := L } = usage H N c w from rfl, show credit c { w with lim := L } = credit c w from rfl] at hul
  have hcr : credit c w2 ≤ credit c w := k.credit
  have hcr' := Nat.mul_le_mul_right c.pageSize hcr
  have hexact : m + credit c w2 + pages H N c w2 = credit c w + pages H N c w := k.exact
  have hpl : usage H N c w2 ≤ usage H N c w := by
    have := Nat.mul_le_mul_right c.pageSize k.pages_le
    have hm2 : w2.metadata = w.metadata := k.metadata
    rw [show pages H N c { w with lim := L } = pages H N c w from rfl] at this
    unfold usage
    omega
  rw [e]
  cases ok with
  | true =>
    refine ⟨_, _, _, _, A, true, [], usage H N c w2, rfl, k.good, hcp, by simp, hat', ⟨by rw [← ht]; omega, by rw [← ht]; omega⟩,
      ⟨Nat.le_refl _, hpl⟩, fun _ => ⟨rfl, rfl⟩, (fun h => by cases h), fun _ => rfl, (fun h => by cases h), (fun h => by cases h), ⟨by show w2.lim.soft = _; rw [k.lim]; exact hLs, fun _ => by show w2.lim.hard = _; rw [k.lim]; exact hLh⟩⟩
  | false =>
    simp only []
    have hst : (env H N mode c).st w2 = L := k.lim
    have hus : (env H N mode c).usage w2 = usage H N c w2 := rfl
    unfold hardPhase
    rw [hst, hus]
    dsimp only
    rw [hLh]
    by_cases hh : w.lim.hard < sizeMax
    · rw [if_pos hh]
      by_cases hle : usage H N c w2 ≤ w.lim.hard
      · rw [if_pos hle]
        refine ⟨_, _, _, _, A, false, [], usage H N c w2, rfl, k.good, hcp, by simp, hat', ⟨by rw [← ht]; omega, by rw [← ht]; omega⟩,
          ⟨Nat.le_refl _, hpl⟩, (fun h => by cases h), fun _ _ => ⟨rfl, rfl⟩, fun _ => rfl, fun _ _ h => absurd h (by omega), fun _ hw => hex hw rfl (by simp),
          ⟨by rw [k.lim]; exact hLs, fun _ => by rw [k.lim]; exact hLh⟩⟩
      · rw [if_neg hle]
        have hcp2 := lengthCeil_spec c hp (usage H N c w2 - w.lim.hard)
        obtain ⟨w3, m3, ok3, B, e3, k3, hok3, ht3, -⟩ :=
          shrinkHardBy_world hN hH sub k.good (lengthCeil c (usage H N c w2 - w.lim.hard)) .hard
        have hat3 := shrinkHardBy_attempt _ _ _ _ _ _ e3
        have hat3' : Attempt c (lengthCeil c (usage H N c w2 - w.lim.hard)) (sub = false) B ok3 := by
          have hF : (Kind.hard = Kind.hard ∧ sub = false) = (sub = false) := by simp
          rwa [hF] at hat3
        have hul3 := usage_link k3
        have hcr3 := Nat.mul_le_mul_right c.pageSize k3.credit
        have hpl3 : usage H N c w3 ≤ usage H N c w2 := by
          have := Nat.mul_le_mul_right c.pageSize k3.pages_le
          unfold usage
          rw [k3.metadata]
          omega
        rw [e3]
        have hB : B ≠ [] := by
          intro hB
          obtain ⟨A', B', q1, q2, -⟩ := hat3'.parts
          rw [hB] at q1
          have : A' = [] := (List.append_eq_nil_iff.1 q1.symm).1
          rw [this] at q2
          exact order_ne c q2.symm
        cases ok3 with
        | true =>
          have hns : (if (({ L with okHard := L.okHard + 1 } : Lim).okHard) = ({ L with okHard := L.okHard + 1 } : Lim).hitsHard then Outcome.returned else .assertFailed) ≠ .aborted := by
            split <;> simp
          refine ⟨_, _, _, _, A, false, B, usage H N c w2, rfl, k3.good, hcp, rfl, hat', ⟨by rw [← ht]; omega, by rw [← ht]; omega⟩,
            ⟨hpl3, hpl⟩, (fun h => by cases h), fun _ h => absurd h (by omega), fun h => absurd h hB,
            fun _ _ _ => ⟨_, true, hcp2, hat3', ?_, ⟨?_, ?_⟩⟩, fun _ hw => ?_,
            ⟨by show w3.lim.soft = _; rw [k3.lim, k.lim]; exact hLs, fun _ => by show w3.lim.hard = _; rw [k3.lim, k.lim]; exact hLh⟩⟩
          · rw [show (env H N mode c).st w3 = L from k3.lim.trans k.lim]
            exact ⟨fun h => absurd h hns, fun h => by cases h⟩
          · show usage H N c w2 ≤ usage H N c w3 + _
            rw [← ht3]; omega
          · show usage H N c w3 + _ ≤ _
            rw [← ht3]; omega
          · have hx := hex hw rfl (by simp)
            intro h hh'
            exact k3.keep h hh' (hx h hh')
        | false =>
          refine ⟨_, _, _, _, A, false, B, usage H N c w2, rfl, k3.good, hcp, rfl, hat', ⟨by rw [← ht]; omega, by rw [← ht]; omega⟩,
            ⟨hpl3, hpl⟩, (fun h => by cases h), fun _ h => absurd h (by omega), fun h => absurd h hB,
            fun _ _ _ => ⟨_, false, hcp2, hat3', by simp, ⟨?_, ?_⟩⟩, fun _ hw => ?_,
            ⟨by show w3.lim.soft = _; rw [k3.lim, k.lim]; exact hLs, fun h => absurd rfl h⟩⟩
          · show usage H N c w2 ≤ usage H N c w3 + _
            rw [← ht3]; omega
          · show usage H N c w3 + _ ≤ _
            rw [← ht3]; omega
          · have hx := hex hw rfl (by simp)
            intro h hh'
            exact k3.keep h hh' (hx h hh')
    · rw [if_neg hh]
      refine ⟨_, _, _, _, A, false, [], usage H N c w2, rfl, k.good, hcp, by simp, hat', ⟨by rw [← ht]; omega, by rw [← ht]; omega⟩,
        ⟨Nat.le_refl _, hpl⟩, (fun h => by cases h), fun _ _ => ⟨rfl, rfl⟩, fun _ => rfl, fun _ h => absurd h hh, fun _ hw => hex hw rfl (by simp),
        ⟨by rw [k.lim]; exact hLs, fun _ => by rw [k.lim]; exact hLh⟩⟩

/-- **C32.**  The process is aborted only with the usage still over the hard limit and, when the kernel refuses nothing,
with nothing left in any heap that could be returned to it. -/
theorem abort_justified (hN : 2 ≤ N) (hH : 0 < H) (hp : 0 < c.pageSize) (sub : Bool) (w : World) (n : Nat)
    (hg : Good H N mode c mem live w) {w' : World} {log : List Ask}
    (h : shrinkToLimit (env H N mode c) c sub w n = some (w', .aborted, log)) :
    w.lim.hard < sizeMax ∧ w.lim.hard < usage H N c w' ∧ (Willing w → Exhausted N c w') := by
  by_cases hin : w.lim.soft = sizeMax ∨ usage H N c w ≤ w.lim.soft
  · obtain ⟨x, e, -⟩ := within_limit (mode := mode) sub w n hin
    rw [e] at h
    cases h
  · rw [not_or] at hin
    obtain ⟨x, o, lg, p, A, ok, B, u, e, -, -, -, -, -, h1, h2, h3, -, h5, h6, -⟩ :=
      over_limit hN hH hp sub w n hg hin.1 (by omega)
    rw [h] at e
    cases e
    cases ok with
    | true => cases (h2 rfl).1
    | false =>
      by_cases hh : w.lim.hard ≥ sizeMax ∨ u ≤ w.lim.hard
      · cases (h3 rfl hh).1
      · rw [not_or] at hh
        obtain ⟨p2, ok2, hc, ha, ho, hu1, hu2⟩ := h5 rfl (by omega) (by omega)
        refine ⟨by omega, ?_, h6 rfl⟩
        have hno : ok2 = false := ho.1 rfl
        have hlt : ¬ p2 ≤ total B := fun hle => by have := ha.result.2 hle; rw [hno] at this; cases this
        have := Nat.mul_le_mul_right c.pageSize (show total B + 1 ≤ p2 by omega)
        rw [Nat.add_mul] at this
        have := hc.2
        omega

/-- **C47 (partial).**  When a check of the limits does not abort, the usage is within the hard limit but for the pages
that were returned to the kernel earlier and not yet reported (`credit`): the allocator counts those against the excess
although they are not part of the usage.  With no such pages the hard limit holds.  The soft limit holds in the same
sense unless nothing is left to return.  Missing: the hard limit without the proviso, which is false (`limit_not_kept`). -/
theorem limit_kept_partial (hN : 2 ≤ N) (hH : 0 < H) (hp : 0 < c.pageSize) (sub : Bool) (w : World) (n : Nat)
    (hg : Good H N mode c mem live w) (hsh : w.lim.soft ≤ w.lim.hard) {w' : World} {o : Outcome} {log : List Ask}
    (h : shrinkToLimit (env H N mode c) c sub w n = some (w', o, log)) (ho : o ≠ .aborted) :
    (w.lim.hard < sizeMax → usage H N c w' ≤ w.lim.hard + credit c w * c.pageSize) ∧
    (w.lim.soft < sizeMax → Willing w → usage H N c w' ≤ w.lim.soft + credit c w * c.pageSize ∨ Exhausted N c w') := by
  by_cases hin : w.lim.soft = sizeMax ∨ usage H N c w ≤ w.lim.soft
  · obtain ⟨x, e, e2, -⟩ := within_limit (mode := mode) sub w n hin
    have hw : usage H N c x = usage H N c w := by
      rcases notePeak_spec (H := H) (N := N) (mode := mode) (c := c) w n with ⟨l, hl, -⟩
      unfold shrinkToLimit at e
      rw [hl] at e
      dsimp only at e
      have hu : (env H N mode c).usage w = usage H N c w := rfl
      have hst : (env H N mode c).st { w with lim := l } = l := rfl
      split at e
      · cases e; rfl
      · split at e
        · cases e; rfl
        · rename_i hn1 hn2
          rw [hst] at hn1 hn2
          rw [hu] at hn2
          have := (notePeak_spec (H := H) (N := N) (mode := mode) (c := c) w n)
          obtain ⟨l', hl', q1, -⟩ := this
          rw [hl] at hl'
          cases hl'
          rw [q1] at hn1 hn2
          rcases hin with h | h
          · exact absurd h hn1
          · exact absurd h hn2
    rw [e] at h
    cases h
    rw [hw]
    refine ⟨fun hh => ?_, fun hs _ => Or.inl ?_⟩
    · rcases hin with h | h <;> omega
    · rcases hin with h | h <;> omega
  · rw [not_or] at hin
    obtain ⟨x, o', lg, p, A, ok, B, u, e, -, hcp, -, ha, hua, h1, h2, h3, h4, h5, h6, -⟩ :=
      over_limit hN hH hp sub w n hg hin.1 (by omega)
    rw [h] at e
    cases e
    have hsoft : ok = true → usage H N c w' ≤ w.lim.soft + credit c w * c.pageSize := by
      intro hok
      have := Nat.mul_le_mul_right c.pageSize (ha.result.1 hok)
      have := hcp.1
      omega
    refine ⟨fun hh => ?_, fun hs hw => ?_⟩
    · cases hok : ok with
      | true => have := hsoft hok; omega
      | false =>
        by_cases hle : u ≤ w.lim.hard
        · omega
        · obtain ⟨p2, ok2, hc, ha2, ho2, hu1, hu2⟩ := h5 hok hh (by omega)
          have hok2 : ok2 = true := by
            cases ok2 with
            | true => rfl
            | false => exact absurd (ho2.2 rfl) ho
          have := Nat.mul_le_mul_right c.pageSize (ha2.result.1 hok2)
          have := hc.1
          omega
    · cases hok : ok with
      | true => exact Or.inl (hsoft hok)
      | false => exact Or.inr (h6 hok hw)

/-- `MallocExtension::SetMemoryLimit`: the limit is set, and a soft limit above the hard one is lowered to it, at once
enforced as above. -/
theorem set_limit (hN : 2 ≤ N) (hH : 0 < H) (hp : 0 < c.pageSize) (sub : Bool) (w : World) (limit : Nat) (k : Kind)
    (hg : Good H N mode c mem live w) {w' : World} {o : Outcome} {log : List Ask}
    (h : setLimit (env H N mode c) c sub w limit k = some (w', o, log)) :
    Good H N mode c mem live w' ∧
    (let hard := if k = .hard then limit else w.lim.hard
     let soft := if k = .soft then limit else w.lim.soft
     w'.lim.soft = min soft hard ∧ (o ≠ .aborted → w'.lim.hard = hard)) := by
  have key : ∀ (l : Lim), shrinkToLimit (env H N mode c) c sub ((env H N mode c).put w l) 0 = some (w', o, log) →
      Good H N mode c mem live w' ∧ w'.lim.soft = l.soft ∧ (o ≠ .aborted → w'.lim.hard = l.hard) := by
    intro l e
    have hg1 : Good H N mode c mem live ((env H N mode c).put w l) := hg
    by_cases hin : l.soft = sizeMax ∨ usage H N c ((env H N mode c).put w l) ≤ l.soft
    · obtain ⟨x, e1, e2, e3, e4, e5⟩ := within_limit (mode := mode) sub ((env H N mode c).put w l) 0 hin
      rw [e1] at e
      cases e
      refine ⟨?_, e4, fun _ => e5⟩
      intro y hy
      rw [e2]
      exact hg y hy
    · rw [not_or] at hin
      obtain ⟨x, o', lg, p, A, ok, B, u, e1, e2, -, -, -, -, -, -, -, -, -, -, e3⟩ :=
        over_limit hN hH hp sub ((env H N mode c).put w l) 0 hg1 hin.1 (by have := hin.2; dsimp only [env] at this ⊢; omega)
      rw [e1] at e
      cases e
      exact ⟨e2, e3⟩
  unfold setLimit at h
  cases k with
  | soft =>
    dsimp only at h
    split at h
    · rename_i hlt
      obtain ⟨g1, g2, g3⟩ := key _ h
      refine ⟨g1, ?_, g3⟩
      rw [g2]; dsimp only at hlt ⊢; simp only [if_true, reduceCtorEq, if_false]
      show w.lim.hard = _
      have : w.lim.hard < limit := hlt
      omega
    · rename_i hlt
      obtain ⟨g1, g2, g3⟩ := key _ h
      refine ⟨g1, ?_, g3⟩
      rw [g2]; simp only [if_true, reduceCtorEq, if_false]
      show limit = _
      have : ¬ w.lim.hard < limit := hlt
      omega
  | hard =>
    dsimp only at h
    split at h
    · rename_i hlt
      obtain ⟨g1, g2, g3⟩ := key _ h
      refine ⟨g1, ?_, g3⟩
      rw [g2]; simp only [if_true, reduceCtorEq, if_false]
      show limit = _
      have : limit < w.lim.soft := hlt
      omega
    · rename_i hlt
      obtain ⟨g1, g2, g3⟩ := key _ h
      refine ⟨g1, ?_, g3⟩
      rw [g2]; simp only [if_true, reduceCtorEq, if_false]
      show w.lim.soft = _
      have : ¬ limit < w.lim.soft := hlt
      omega

/-- **C33 (partial).**  A release always completes; the memory obtained and the runs in use stay the same; the pages it
reports are exactly those by which the backed pages decreased, plus pages returned earlier and not yet reported, which it
uses up; if the kernel refuses nothing and fewer pages than requested are reported, no cached hugepage is left, and with
subrelease on, no free backed page on any hugepage of the fillers.  Missing: exactness without the earlier pages
(false, `release_not_exact`), and free hugepages of regions (false,
`release_leaves_region`). -/
theorem release_exact_partial (hN : 2 ≤ N) (hH : 0 < H) (w : World) (num : Nat) (hg : Good H N mode c mem live w) :
    ∃ w' m log, releaseAtLeast (env H N mode c) c w num = some (w', m, log) ∧ Good H N mode c mem live w' ∧
      m + credit c w' + pages H N c w' = credit c w + pages H N c w ∧ credit c w' ≤ credit c w ∧
      pages H N c w' ≤ pages H N c w ∧
      (log.map Ask.heap = order c ∧ (∀ a ∈ log, a.breaking = false) ∧ m = total log ∧ AsksMissing num 0 log) ∧
      (Willing w → m < num → (∀ h ∈ order c, (w'.heaps h).cache.size = 0) ∧
        (Subreleasing w → num ≤ lengthMax → Drained N c w')) := by
  obtain ⟨w', m, log, e, l, -, hd⟩ := releaseLoop_world hN hH num (order c) w 0 hg (fun _ h => h) (order_nodup c)
  rw [Nat.zero_add] at e
  obtain ⟨a1, a2, a3, a4⟩ := releaseLoop_log _ _ _ _ _ e
  rw [Nat.zero_add] at a3
  refine ⟨w', m, log, e, l.good, l.exact, l.credit, l.pages_le, ⟨a1, a2, a3, a4⟩, fun hw hlt => ?_⟩
  have := hd hw (by omega)
  exact ⟨fun h hh => (this h hh).1, fun hs hn h hh => ⟨(this h hh).1, (this h hh).2 hs hn⟩⟩

/-- C33: with no earlier pages to report, the reported number is exactly the decrease of the backed pages. -/
theorem release_exact_without_credit (hN : 2 ≤ N) (hH : 0 < H) (w : World) (num : Nat) (hg : Good H N mode c mem live w)
    (h0 : credit c w = 0) {w' : World} {m : Nat} {log : List Ask} (h : releaseAtLeast (env H N mode c) c w num = some (w', m, log)) :
    m + pages H N c w' = pages H N c w := by
  obtain ⟨x, m', lg, e, -, h1, h2, -⟩ := release_exact_partial hN hH w num hg
  rw [h] at e
  cases e
  omega

/-- **C48 (partial), `MallocExtension::ReleaseMemoryToSystem`.**  Nothing is lost within a call: the value returned and
the surplus carried over are together the bytes reported by the heaps; the value is never more than the request.  If the
request exceeds the surplus carried in, the surplus carried out is what was released in all beyond what was requested in
all.  Missing: the same when the request is at most the surplus (false, `surplus_lost`). -/
theorem rate_partial (hN : 2 ≤ N) (hH : 0 < H) (hp : 0 < c.pageSize) (w : World) (extra bytes : Nat) (hg : Good H N mode c mem live w) :
    ∃ extra' w' r num m log, releaserRelease (env H N mode c) c extra w bytes = some (extra', w', r, log) ∧
      Good H N mode c mem live w' ∧ releaseAtLeast (env H N mode c) c w num = some (w', m, log) ∧ CeilPages c (bytes - extra) num ∧
      r + extra' = m * c.pageSize ∧ r ≤ bytes ∧ (0 < extra' → r = bytes - extra) ∧
      (extra < bytes → extra' = extra + m * c.pageSize - bytes) := by
  have hb : (if bytes ≤ extra then 0 else bytes - extra) = bytes - extra := by split <;> omega
  have hn : (if bytes - extra > 0 then lengthCeil c (bytes - extra) else 0) = lengthCeil c (bytes - extra) := by
    split
    · rfl
    · have : bytes - extra = 0 := by omega
      rw [this]; unfold lengthCeil; simp
  obtain ⟨w', m, log, e, hg', -⟩ := release_exact_partial hN hH w (lengthCeil c (bytes - extra)) hg
  unfold releaserRelease
  rw [hb]
  dsimp only
  rw [hn, e]
  dsimp only
  have hc := lengthCeil_spec c hp (bytes - extra)
  by_cases hgt : m * c.pageSize > bytes - extra
  · rw [if_pos hgt]
    exact ⟨_, w', _, _, m, log, rfl, hg', e, hc, by omega, by omega, fun _ => rfl, fun _ => by omega⟩
  · rw [if_neg hgt]
    exact ⟨_, w', _, _, m, log, rfl, hg', e, hc, by omega, by omega, fun h => absurd h (by omega), fun _ => by omega⟩

/-- The surplus is forgotten as soon as a request is covered by it, whatever it was. -/
theorem surplus_forgotten (hN : 2 ≤ N) (hH : 0 < H) (w : World) (extra bytes : Nat) (hg : Good H N mode c mem live w)
    (hle : bytes ≤ extra) : ∃ w' m log, releaseAtLeast (env H N mode c) c w 0 = some (w', m, log) ∧
      releaserRelease (env H N mode c) c extra w bytes = some (m * c.pageSize, w', 0, log) := by
  obtain ⟨w', m, log, e, -⟩ := release_exact_partial hN hH w 0 hg
  refine ⟨w', m, log, e, ?_⟩
  unfold releaserRelease
  rw [if_pos hle]
  dsimp only
  rw [if_neg (by omega), e]
  dsimp only
  split
  · rfl
  · rename_i h
    have : m * c.pageSize = 0 := by omega
    rw [this]

end Verif.PageAllocator
