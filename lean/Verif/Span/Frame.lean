import Verif.Span.Props
/-!
A span writes only inside its own objects: building a free list and pushing objects change no word of
memory outside them.
-/
namespace Verif.Span

theorem buildLoop_frame {g : Geo} (hg : g.OK) (a : Nat)
    (ha : ∀ k, k < g.count → ¬ InObj g (g.start + k * g.size) a) :
    ∀ (r i : Nat) (host : Option Nat) (em fl : Nat) (w : Mem), i + r ≤ g.count →
      (∀ h, host = some h → ∃ k, k < g.count ∧ h = g.size / 8 * k) → em ≤ g.size / 2 - 1 →
      (buildLoop g (g.size / 8) r i host em fl w).2.2 a = w a := by
  obtain ⟨hs8, hpos⟩ := hg.size_step
  have hword : ∀ k, k < g.count → ∀ e, e ≤ g.size / 2 - 1 →
      a ≠ idxToPtr g.start (g.size / 8 * k) / 2 + e := by
    intro k hk e he hae
    apply ha k hk
    have h1 := idxToPtr_obj hg k
    have h2 := obj_word hg k
    unfold InObj
    have hst : 2 ∣ g.start + k * g.size := by
      have h3 : 2 ∣ g.start := by
        unfold Geo.start
        have := hg.shiftLo
        unfold Geo.pageSize
        exact Nat.dvd_trans (Nat.pow_dvd_pow 2 (show 1 ≤ g.pageShift by omega)) (Nat.dvd_mul_left _ _)
      have h4 : 2 ∣ k * g.size :=
        Nat.dvd_trans (show 2 ∣ g.size by have := hg.size8; omega) (Nat.dvd_mul_left _ _)
      exact Nat.dvd_add h3 h4
    rw [h1] at hae
    generalize g.start + k * g.size = o at *
    have := hg.sizePos
    have := hg.size8
    omega
  intro r
  induction r with
  | zero => intro i host em fl w _ _ _; rfl
  | succ r ih =>
    intro i host em fl w hi hh hem
    have case1 : (buildLoop g (g.size / 8) r (i + 1) (some (g.size / 8 * i)) 0 (g.size / 8 * i)
        (wr w (idxToPtr g.start (g.size / 8 * i) / 2) fl)).2.2 a = w a := by
      rw [ih (i + 1) _ 0 _ _ (by omega) ?_ (by omega)]
      · exact wr_ne (hword i (by omega) 0 (by omega))
      · intro h e; cases e; exact ⟨i, by omega, rfl⟩
    cases host with
    | none => exact case1
    | some h =>
      rw [buildLoop]
      by_cases he : em ≠ g.size / 2 - 1
      · rw [if_pos he, ih i _ _ _ _ (by omega) hh (by omega)]
        obtain ⟨k, hk, rfl⟩ := hh h rfl
        exact wr_ne (hword k hk (em + 1) (by omega))
      · rw [if_neg he]; exact case1

/-- Building writes only inside the span's objects. -/
theorem build_frame {g : Geo} (hg : g.OK) {s : St} {w : Mem} {n : Nat} {s' : St} {w' : Mem}
    {out : List Nat} (h : build g s w n = some (s', w', out)) (a : Nat)
    (ha : ∀ o, IsObj g o → ¬ InObj g o a) : w' a = w a := by
  unfold build at h
  cases hu : useBitmap g
  · rw [hu] at h
    simp only [Bool.false_eq_true, if_false, Option.some.injEq] at h
    unfold listBuild at h
    simp only [Prod.mk.injEq] at h
    obtain ⟨_, h, _⟩ := h
    rw [← h]
    exact buildLoop_frame hg a (fun k hk => ha _ ⟨k, hk, rfl⟩) _ _ _ _ _ _ (by split <;> omega)
      (by intro h e; cases e) (by omega)
  · rw [hu] at h
    simp only [if_true] at h
    split at h
    · cases h
    · split at h
      · cases h
      · simp only [Option.some.injEq, Prod.mk.injEq] at h
        rw [h.2.1]

/-- Pushing writes only inside the span's objects. -/
theorem push_frame {g : Geo} (hg : g.OK) {s : St} {w : Mem} {live batch : List Nat}
    (h : Reach g s w live) (hnd : batch.Nodup) (hsub : ∀ p ∈ batch, p ∈ live)
    {b : Bool} {s' : St} {w' : Mem}
    (e : pushBatchIdx g s w (batch.map (objIdx g)) = some (b, s', w')) (a : Nat)
    (ha : ∀ o, IsObj g o → ¬ InObj g o a) : w' a = w a := by
  obtain ⟨F, i1, i2, i3, i4⟩ := h.inv hg
  have hn := List.nodup_append.1 i2
  have hbF : (batch ++ F).Nodup := by
    rw [List.nodup_append]
    exact ⟨hnd, hn.2.1, fun a ha b hb => hn.2.2 a (hsub a ha) b hb⟩
  have hobj : ∀ p ∈ batch, IsObj g p := fun p hp => (i3 p).1 (by simp [hsub p hp])
  have htot := i1.total
  have hle : batch.length ≤ live.length := nodup_subset_length hnd hsub
  rw [pushBatchIdx_eq hg _ _ _ hobj] at e
  rcases pushBatch_spec hg i1 hbF hobj (by omega) with ⟨hl, e'⟩ | ⟨hl, s2, w2, e', _, hfr⟩
  · rw [e'] at e; cases e; rfl
  · rw [e'] at e; cases e
    apply hfr
    intro q hq
    apply ha
    rcases List.mem_append.1 hq with h' | h'
    · exact hobj q h'
    · exact i1.objs q h'

/-- Everything about a push in one place, for the list of what is out afterwards. -/
theorem Reach.push_some {g : Geo} (hg : g.OK) {s : St} {w : Mem} {live batch : List Nat}
    (h : Reach g s w live) (hnd : batch.Nodup) (hsub : ∀ p ∈ batch, p ∈ live) :
    (pushBatchIdx g s w (batch.map (objIdx g)) = some (false, s, w) ∧ ∀ p ∈ live, p ∈ batch) ∨
    ∃ s' w', pushBatchIdx g s w (batch.map (objIdx g)) = some (true, s', w') ∧
      (¬ ∀ p ∈ live, p ∈ batch) ∧ Reach g s' w' (live.filter fun p => decide (p ∉ batch)) ∧
      (∀ a, (∀ o, IsObj g o → ¬ InObj g o a) → w' a = w a) ∧
      (∀ p ∈ live, p ∉ batch → ∀ a, InObj g p a → w' a = w a) := by
  obtain ⟨b, s', w', _, h2, h3, h4, h5⟩ := span_push_exact g hg s w live h batch hnd hsub
  cases b
  · obtain ⟨rfl, rfl⟩ := h3 rfl
    exact Or.inl ⟨h5, h2.1 rfl⟩
  · refine Or.inr ⟨s', w', h5, fun hh => ?_, .pushIdx batch h hnd hsub h5, ?_, h4⟩
    · exact absurd (h2.2 hh) (by simp)
    · exact fun a ha => push_frame hg h hnd hsub h5 a ha

end Verif.Span
