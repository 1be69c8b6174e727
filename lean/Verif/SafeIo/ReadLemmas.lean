import Verif.SafeIo.Lemmas
namespace Verif.SafeIo

/-- The buffer holds the first `total` bytes of the file, and behind them what it held before. -/
structure Ok (src buf : List Nat) (count : Nat) (s : Reading) : Prop where
  cap : count ≤ buf.length
  le : s.total ≤ count
  has : s.total ≤ src.length
  buf : s.buf = src.take s.total ++ buf.drop s.total
  src : s.src = src.drop s.total

theorem Ok.init {src buf : List Nat} {count errno : Nat} (h : count ≤ buf.length) : Ok src buf count ⟨src, buf, 0, errno⟩ :=
  ⟨h, Nat.zero_le _, Nat.zero_le _, by simp, by simp⟩

theorem Ok.errno {src buf : List Nat} {count : Nat} {s : Reading} (h : Ok src buf count s) (e : Nat) :
    Ok src buf count { s with errno := e } := ⟨h.cap, h.le, h.has, h.buf, h.src⟩

theorem Ok.step {src buf : List Nat} {count : Nat} {s : Reading} (h : Ok src buf count s) (m e : Nat) (hm : m ≤ count - s.total)
    (got : List Nat) (hgot : got = s.src.take m) :
    s.total + got.length ≤ s.buf.length ∧
    Ok src buf count ⟨s.src.drop got.length, store s.buf got s.total, s.total + got.length, e⟩ := by
  have hl : got.length = min m (src.length - s.total) := by rw [hgot, h.src]; simp
  have h1 := h.le
  have h2 := h.has
  have h3 := h.cap
  have htk : (src.take s.total).length = s.total := by simp; omega
  have hbl : s.buf.length = buf.length := by rw [h.buf]; simp; omega
  refine ⟨by omega, h3, ?_, ?_, ?_, ?_⟩
  · show s.total + got.length ≤ count
    omega
  · show s.total + got.length ≤ src.length
    omega
  · show store s.buf got s.total = src.take (s.total + got.length) ++ buf.drop (s.total + got.length)
    unfold store
    rw [h.buf, List.take_append_of_le_length (by omega), List.take_of_length_le (by omega : (src.take s.total).length ≤ s.total),
      List.drop_append, htk, List.drop_eq_nil_of_le (by omega : (src.take s.total).length ≤ s.total + got.length), List.drop_drop]
    have hg2 : got = (src.drop s.total).take got.length := by
      rw [hgot, h.src]
      simp
    rw [List.take_add, ← hg2]
    simp [Nat.add_sub_cancel_left]
  · show s.src.drop got.length = src.drop (s.total + got.length)
    rw [h.src, List.drop_drop]

/-- How a read ends. -/
structure Ended (count : Nat) (ans : List Ans) (r : ReadEnd) : Prop where
  rc : r.rc = r.st.total ∨ r.rc = -1
  last : ∃ used a, ans = used ++ a :: r.rest ∧
    (r.rc = -1 → Failed a r.st.errno) ∧
    (r.rc ≠ -1 → r.st.total < count → a = .ret 0 ∨ r.st.src = [] ∨ ∃ e, Failed a e)

theorem Ended.mono {count : Nat} {pre ans : List Ans} {r : ReadEnd} (h : Ended count ans r) : Ended count (pre ++ ans) r := by
  obtain ⟨h1, used, a, h2, h3⟩ := h
  exact ⟨h1, pre ++ used, a, by rw [h2]; simp, h3⟩

theorem readEnd_ended {count : Nat} {rc : Int} {s : Reading} {used rest : List Ans} {a : Ans} {r : ReadEnd}
    (h : readEnd rc s rest = .ok r)
    (h1 : rc = -1 → s.errno = EINTR ∨ Failed a s.errno)
    (h2 : s.total < count → a = .ret 0 ∨ s.src = [] ∨ ∃ e, Failed a e) :
    r.st = s ∧ Ended count (used ++ a :: rest) r := by
  unfold readEnd at h
  cases h
  refine ⟨rfl, ?_, used, a, rfl, ?_, ?_⟩
  · by_cases hr : rc ≠ -1 ∨ s.errno = EINTR
    · left; simp only [hr, if_true]
    · right
      simp only [hr, if_false]
      rw [not_or] at hr
      exact Classical.not_not.1 hr.1
  · intro hr
    by_cases hc : rc ≠ -1 ∨ s.errno = EINTR
    · simp only [hc, if_true] at hr
      omega
    · rw [not_or] at hc
      rcases h1 (Classical.not_not.1 hc.1) with h | h
      · exact absurd h hc.2
      · exact h
  · intro _ hlt
    exact h2 hlt

theorem readLoop_spec {src buf : List Nat} {count : Nat} {s : Reading} {ans : List Ans} (hok : Ok src buf count s) :
    readLoop count s ans ≠ .ub ∧
    (readLoop count s ans = .waiting → ans.length ≤ 2 * (count - s.total) + 2 * interruptions ans) ∧
    (∀ r, readLoop count s ans = .ok r → Ok src buf count r.st ∧ Ended count ans r) := by
  induction hn : ans.length using Nat.strongRecOn generalizing s ans with
  | _ n ih =>
    subst hn
    rw [readLoop.eq_def]
    match ans with
    | [] => exact ⟨by simp, by simp, fun r h => by simp at h⟩
    | a :: rest =>
      -- what follows a poll
      have hpoll : ∀ (s' : Reading) (rc : Int) (pre : Ans), Ok src buf count s' → s'.total < count →
          (rc = -1 → s'.errno = EINTR) → rc ≠ 0 → pre = a →
          2 * (count - s'.total) + (if pre = .err EINTR then 0 else 2) ≤ 2 * (count - s.total) →
          ∀ o, o = (match safePoll 1 (some 0) s'.errno rest with
            | .ok p =>
              let s := { s' with errno := p.errno }
              if p.rc = 1 ∨ s.total = 0 then readLoop count s p.rest else readEnd rc s p.rest
            | .waiting => .waiting
            | .ub => .ub) →
          o ≠ .ub ∧ (o = .waiting → (a :: rest).length ≤ 2 * (count - s.total) + 2 * interruptions (a :: rest)) ∧
          (∀ r, o = .ok r → Ok src buf count r.st ∧ Ended count (a :: rest) r) := by
        intro s' rc pre hok' hlt hrc hrc0 hpre hmeas o ho
        subst hpre
        rw [poll_now] at ho
        match hq : pollRetry 1 s'.errno rest with
        | .ub => exact absurd hq pollRetry_ub
        | .waiting =>
          rw [hq] at ho
          subst ho
          refine ⟨by simp, ?_, fun r h => by simp at h⟩
          intro _
          have := pollRetry_waiting hq
          rw [interruptions_cons, this, List.length_cons]
          split at hmeas
          · rename_i hp; simp only [hp, if_true]; omega
          · rename_i hp; simp only [hp, if_false]; omega
        | .ok q =>
          rw [hq] at ho
          obtain ⟨used, b, hu1, hu2, hu3, hb, hv, hve⟩ := pollRetry_ok hq
          simp only at ho
          by_cases hc : q.1 = 1 ∨ s'.total = 0
          · simp only [hc, if_true] at ho
            subst ho
            have hlen : q.2.2.length < (pre :: rest).length := by rw [hu1]; simp; omega
            obtain ⟨i1, i2, i3⟩ := ih _ hlen (hok'.errno q.2.1) rfl
            refine ⟨i1, ?_, ?_⟩
            · intro hw
              have := i2 hw
              have hi : interruptions (pre :: rest) = (if pre = .err EINTR then 1 else 0) + used.length + interruptions q.2.2 := by
                rw [interruptions_cons, hu1, interruptions_append, interruptions_cons, hu3]
                simp only [hb, if_false]; omega
              have hl : (pre :: rest).length = 2 + used.length + q.2.2.length := by rw [hu1]; simp; omega
              simp only at this
              rw [hi, hl]
              split at hmeas
              · rename_i hp; simp only [hp, if_true]; omega
              · rename_i hp; simp only [hp, if_false]; omega
            · intro r hr
              obtain ⟨j1, j2⟩ := i3 r hr
              refine ⟨j1, ?_⟩
              have := j2.mono (pre := pre :: used ++ [b])
              rw [hu1]
              simpa using this
          · simp only [hc, if_false] at ho
            subst ho
            rw [not_or] at hc
            refine ⟨by simp [readEnd], by simp [readEnd], ?_⟩
            intro r hr
            have := readEnd_ended (count := count) (used := pre :: used) (a := b) hr ?_ ?_
            · rw [hu1]
              exact ⟨this.1 ▸ hok'.errno _, by simpa using this.2⟩
            · intro h1
              cases b with
              | ret k =>
                -- errno as the read left it, or an interruption of the poll
                left
                have he : q.2.1 = EINTR := by
                  have h0 := hrc h1
                  have aux : ∀ (e : Nat) (l : List Ans) (q : Int × Nat × List Ans), e = EINTR →
                      pollRetry 1 e l = .ok q → (∃ k, q.1 = pollValue 1 (.ret k)) → q.2.1 = EINTR := by
                    intro e l q he hq hk
                    fun_induction pollRetry 1 e l with
                    | case1 => cases hq
                    | case2 => cases hq; exact he
                    | case3 _ _ ih => exact ih rfl hq
                    | case4 => 
                      cases hq
                      obtain ⟨k, hk⟩ := hk
                      simp only [pollValue] at hk
                      omega
                  exact aux _ _ _ h0 hq ⟨k, hv⟩
                exact he
              | err e =>
                right
                refine ⟨?_, ?_⟩
                · show Ans.err e = .err q.2.1
                  rw [hve e rfl]
                · show q.2.1 ≠ EINTR
                  rw [hve e rfl]
                  intro hh; rw [hh] at hb; exact hb rfl
            · intro _
              cases b with
              | ret k =>
                left
                have : q.1 ≠ 1 := hc.1
                rw [hv] at this
                simp only [pollValue] at this
                have : k = 0 := by omega
                rw [this]
              | err e => right; right; exact ⟨e, rfl, fun hh => hb (by rw [hh])⟩
      cases a with
      | err e =>
        have hnb : ¬ (s.total + 0 > s.buf.length) := by
          have h1 := hok.le; have h2 := hok.cap; have h3 := hok.has
          rw [hok.buf]; simp; omega
        have hst : store s.buf [] s.total = s.buf := by simp [store]
        simp only [List.length_nil, List.drop_zero, hst]
        rw [if_neg hnb, if_neg (by decide)]
        simp only [show ¬ ((-1 : Int) > 0) by decide, if_false, false_or]
        have hok' : Ok src buf count ⟨s.src, s.buf, s.total, e⟩ := hok.errno e
        by_cases hc : s.total < count ∧ e = EINTR
        · rw [if_pos hc]
          exact hpoll ⟨s.src, s.buf, s.total, e⟩ (-1) (.err e) hok' hc.1 (fun _ => hc.2) (by decide) rfl
            (by rw [hc.2]; simp) _ (by split <;> rename_i h <;> rw [h])
        · rw [if_neg hc]
          refine ⟨by simp [readEnd], by simp [readEnd], ?_⟩
          intro r hr
          have := readEnd_ended (count := count) (used := []) (a := .err e) hr ?_ ?_
          · exact ⟨this.1 ▸ hok', this.2⟩
          · intro _
            by_cases he : e = EINTR
            · left; exact he
            · right; exact ⟨rfl, he⟩
          · intro hlt
            right; right
            refine ⟨e, rfl, fun he => hc ⟨hlt, he⟩⟩
      | ret k =>
        have hstep := hok.step (min k (count - s.total)) s.errno (by omega) (s.src.take (min k (count - s.total))) rfl
        obtain ⟨hb, hok'⟩ := hstep
        simp only
        generalize hg : s.src.take (min k (count - s.total)) = got at *
        rw [if_neg (by omega)]
        by_cases h0 : got.length = 0
        · have hn : got = [] := List.length_eq_zero_iff.1 h0
          subst hn
          simp only [List.length_nil, Int.natCast_zero, if_true, gt_iff_lt, Int.lt_irrefl, if_false] at hok' ⊢
          refine ⟨by simp [readEnd], by simp [readEnd], ?_⟩
          intro r hr
          have := readEnd_ended (count := count) (used := []) (a := .ret k) hr ?_ ?_
          · exact ⟨this.1 ▸ hok', this.2⟩
          · intro h; simp at h
          · intro hlt
            simp only [List.drop_zero] at hlt ⊢
            have := congrArg List.length hg
            simp only [List.length_take, List.length_nil] at this
            by_cases hk : k = 0
            · left; rw [hk]
            · right; left
              apply List.length_eq_zero_iff.1
              omega
        · have hpos : (got.length : Int) > 0 := by omega
          simp only [hpos, if_true, true_or, and_true]
          rw [if_neg (by omega)]
          by_cases hc : s.total + got.length < count
          · rw [if_pos hc]
            exact hpoll ⟨s.src.drop got.length, store s.buf got s.total, s.total + got.length, s.errno⟩ got.length (.ret k) hok' hc
              (fun h => by omega) (by omega) rfl (by simp; omega) _ (by split <;> rename_i h <;> rw [h])
          · rw [if_neg hc]
            refine ⟨by simp [readEnd], by simp [readEnd], ?_⟩
            intro r hr
            have := readEnd_ended (count := count) (used := []) (a := .ret k) hr ?_ ?_
            · exact ⟨this.1 ▸ hok', this.2⟩
            · intro h; omega
            · intro hlt; exact absurd hlt hc

end Verif.SafeIo
