import Verif.SafeIo.Spec
namespace Verif.SafeIo

theorem heard_cons_eintr (l : List Ans) : heard (.err EINTR :: l) = heard l := by simp [heard]

theorem heard_cons_ret (k : Nat) (l : List Ans) : heard (.ret k :: l) = .ret k :: heard l := by simp [heard]

theorem heard_cons_err {e : Nat} (he : e ≠ EINTR) (l : List Ans) : heard (.err e :: l) = .err e :: heard l := by
  simp [heard, he]

theorem heard_append (a b : List Ans) : heard (a ++ b) = heard a ++ heard b := by simp [heard]

theorem interruptions_append (a b : List Ans) : interruptions (a ++ b) = interruptions a + interruptions b := by
  simp [interruptions]

theorem interruptions_cons (a : Ans) (b : List Ans) :
    interruptions (a :: b) = (if a = .err EINTR then 1 else 0) + interruptions b := by
  unfold interruptions
  rw [List.filter_cons]
  by_cases h : a = .err EINTR <;> simp [h]; omega

/-- One poll uses up the interruptions and the first other answer. -/
theorem pollRetry_ok {nfds errno : Nat} {ans : List Ans} {r : Int × Nat × List Ans} (h : pollRetry nfds errno ans = .ok r) :
    ∃ used a, ans = used ++ a :: r.2.2 ∧ heard used = [] ∧ interruptions used = used.length ∧ a ≠ .err EINTR ∧
      r.1 = pollValue nfds a ∧ (∀ e, a = .err e → r.2.1 = e) := by
  fun_induction pollRetry nfds errno ans with
  | case1 => cases h
  | case2 errno k rest =>
    cases h
    exact ⟨[], .ret k, rfl, rfl, rfl, by simp, rfl, by simp⟩
  | case3 errno rest ih =>
    obtain ⟨u, a, h1, h2, h3, h4, h5, h6⟩ := ih h
    refine ⟨.err EINTR :: u, a, by rw [h1]; rfl, by rw [heard_cons_eintr]; exact h2, ?_, h4, h5, h6⟩
    rw [interruptions_cons, h3]; simp; omega
  | case4 errno e rest he =>
    cases h
    exact ⟨[], .err e, rfl, rfl, rfl, by simpa using he, rfl, by intro e' h; cases h; rfl⟩

theorem pollRetry_waiting {nfds errno : Nat} {ans : List Ans} (h : pollRetry nfds errno ans = .waiting) :
    interruptions ans = ans.length := by
  fun_induction pollRetry nfds errno ans with
  | case1 => rfl
  | case2 => cases h
  | case3 errno rest ih => rw [interruptions_cons, ih h]; simp; omega
  | case4 => cases h

theorem pollRetry_ub {nfds errno : Nat} {ans : List Ans} : pollRetry nfds errno ans ≠ .ub := by
  fun_induction pollRetry nfds errno ans with
  | case1 => simp
  | case2 => simp
  | case3 _ _ ih => exact ih
  | case4 => simp

/-- A poll that does not wait polls once. -/
theorem poll_now (nfds errno : Nat) (ans : List Ans) :
    safePoll nfds (some 0) errno ans =
      match pollRetry nfds errno ans with
      | .ok r => .ok ⟨r.1, r.2.1, 0, r.2.2⟩
      | .waiting => .waiting
      | .ub => .ub := by
  unfold safePoll
  rw [pollLoop]
  simp only [goesOn]
  rw [if_pos (by decide)]
  simp only [Int.lt_irrefl, if_false, gt_iff_lt]
  split
  · rename_i r hr
    rw [hr, pollLoop, if_neg]
    simp [goesOn, kMs]
  · rename_i hr; rw [hr]
  · rename_i hr; rw [hr]

end Verif.SafeIo
