import Verif.SafeIo.ReadLemmas
/-! C78 and C79: the wrappers of system calls that ignore signals. -/
namespace Verif.SafeIo

/-! ### Reading -/

/-- C78: however the kernel splits and interrupts a read, the buffer receives the next bytes of the file, each once and in order,
the rest of the buffer keeps its contents, no byte taken from the file is lost, and nothing outside the buffer is touched. -/
theorem read_exact {src buf : List Nat} {count errno : Nat} {ans : List Ans} (hc : count ≤ buf.length) :
    safeRead src buf count errno ans ≠ .ub ∧
    ∀ r, safeRead src buf count errno ans = .ok r →
      r.st.total ≤ count ∧ r.st.total ≤ src.length ∧
      r.st.buf = src.take r.st.total ++ buf.drop r.st.total ∧ r.st.src = src.drop r.st.total := by
  obtain ⟨h1, _, h3⟩ := readLoop_spec (ans := ans) (Ok.init (src := src) (errno := errno) hc)
  refine ⟨h1, fun r hr => ?_⟩
  obtain ⟨hok, _⟩ := h3 r hr
  exact ⟨hok.le, hok.has, hok.buf, hok.src⟩

/-- C78: what a read returns.  The number of bytes it stored, unless the last call failed; then it returns -1 with that call's
error, which is never an interruption.  It returns fewer bytes than it was asked for only if a read found the end of the file, a
poll found the file not ready, or a call failed. -/
theorem read_result {src buf : List Nat} {count errno : Nat} {ans : List Ans} {r : ReadEnd} (hc : count ≤ buf.length)
    (hr : safeRead src buf count errno ans = .ok r) :
    (r.rc = r.st.total ∨ r.rc = -1) ∧
    ∃ used a, ans = used ++ a :: r.rest ∧
      (r.rc = -1 → Failed a r.st.errno) ∧
      (r.rc ≠ -1 → r.st.total < count → a = .ret 0 ∨ r.st.src = [] ∨ ∃ e, Failed a e) := by
  obtain ⟨_, _, h3⟩ := readLoop_spec (ans := ans) (Ok.init (src := src) (errno := errno) hc)
  obtain ⟨_, h⟩ := h3 r hr
  exact ⟨h.rc, h.last⟩

/-- C78: a read ends unless signals keep interrupting it. -/
theorem read_ends {src buf : List Nat} {count errno : Nat} {ans : List Ans} (hc : count ≤ buf.length)
    (h : 2 * count + 2 * interruptions ans < ans.length) : ∃ r, safeRead src buf count errno ans = .ok r := by
  obtain ⟨h1, h2, _⟩ := readLoop_spec (ans := ans) (Ok.init (src := src) (errno := errno) hc)
  unfold safeRead
  match hq : readLoop count ⟨src, buf, 0, errno⟩ ans with
  | .ok r => exact ⟨r, rfl⟩
  | .waiting => have := h2 hq; simp only [Nat.sub_zero] at this; omega
  | .ub => exact absurd hq h1

/-- C78: a read of a regular file delivers all that was asked for, or all there is. -/
theorem read_regular {src buf : List Nat} {count errno : Nat} {ans : List Ans} {r : ReadEnd} (hc : count ≤ buf.length)
    (hreg : Regular ans) (hr : safeRead src buf count errno ans = .ok r) :
    r.rc = min count src.length ∧ r.st.buf = src.take count ++ buf.drop (min count src.length) ∧ r.st.src = src.drop count := by
  obtain ⟨e1, e2, e3, e4⟩ := (read_exact hc).2 r hr
  obtain ⟨hrc, used, a, hu, hf, hs⟩ := read_result hc hr
  have ha : Interrupted a ∨ ∃ k, a = .ret (k + 1) := hreg a (by rw [hu]; simp)
  have hnf : ∀ e, ¬ Failed a e := by
    rintro e ⟨h1, h2⟩
    rcases ha with h | ⟨k, h⟩
    · rw [h1] at h; injection h with h; exact h2 h
    · rw [h1] at h; cases h
  have hne : r.rc ≠ -1 := fun h => hnf _ (hf h)
  have ht : r.st.total = min count src.length := by
    by_cases hlt : r.st.total < count
    · rcases hs hne hlt with h | h | ⟨e, h⟩
      · rcases ha with h' | ⟨k, h'⟩
        · rw [h] at h'; cases h'
        · rw [h] at h'; cases h'
      · rw [e4] at h
        have := congrArg List.length h
        simp only [List.length_drop, List.length_nil] at this
        omega
      · exact absurd h (hnf e)
    · omega
  refine ⟨?_, ?_, ?_⟩
  · rcases hrc with h | h
    · rw [h, ht]
    · exact absurd h hne
  · rw [e3, ht]
    congr 1
    exact List.take_eq_take_min.symm
  · rw [e4, ht]
    by_cases hle : count ≤ src.length
    · rw [Nat.min_eq_left hle]
    · rw [Nat.min_eq_right (by omega), List.drop_length, List.drop_eq_nil_of_le (by omega)]

/-- Five bytes, in three pieces with two signals in between. -/
def demoRead : List Ans := [.err 4, .ret 1, .ret 2, .ret 1, .err 4, .ret 1, .err 4, .ret 1, .ret 9, .ret 7]

example : safeRead [1, 2, 3, 4, 5, 6] [0, 0, 0, 0, 0, 0, 0] 5 0 demoRead =
    .ok ⟨5, ⟨[6], [1, 2, 3, 4, 5, 0, 0], 5, 4⟩, [.ret 7]⟩ := by decide +kernel
example : Regular demoRead := by unfold Regular Interrupted EINTR demoRead; simp
example : safeRead [1, 2] [0, 0, 0] 3 0 [.ret 1, .ret 1, .err 5] = .ok ⟨-1, ⟨[2], [1, 0, 0], 1, 5⟩, []⟩ := by decide +kernel
example : 2 * 2 + 2 * interruptions (.err 4 :: List.replicate 6 (.ret 1)) < (Ans.err 4 :: List.replicate 6 (.ret 1)).length := by decide

/-! ### Polling -/

theorem pollLoop_spec {nfds : Nat} {timeout : Option Int} (i : Nat) {errno sleeps : Nat} {ans : List Ans} {r : Polled}
    (hs : sleeps = i - 1) (hp : ∀ t, timeout = some t → 0 ≤ t → 0 < i → ((i : Int) - 1) * kMs ≤ t)
    (h : pollLoop nfds timeout (i * kMs) 0 errno sleeps ans = .ok r) :
    ∃ used, ans = used ++ r.rest ∧ r.sleeps = i + (heard used).length - 1 ∧
      (r.rc = 0 → (∀ a ∈ heard used, pollValue nfds a = 0) ∧
        ∃ t, timeout = some t ∧ 0 ≤ t ∧ t < ((i + (heard used).length : Nat) : Int) * kMs) ∧
      (r.rc ≠ 0 → ∃ l a, heard used = l ++ [a] ∧ (∀ b ∈ l, pollValue nfds b = 0) ∧ r.rc = pollValue nfds a) ∧
      (∀ t, timeout = some t → 0 ≤ t → 0 < i + (heard used).length → (((i + (heard used).length : Nat) : Int) - 1) * kMs ≤ t) := by
  induction hn : ans.length using Nat.strongRecOn generalizing i errno sleeps ans with
  | _ n ih =>
    subst hn
    rw [pollLoop] at h
    by_cases hg : goesOn timeout (i * kMs) = true
    · rw [if_pos ⟨hg, rfl⟩] at h
      have hsl : (if (i : Int) * kMs > 0 then sleeps + 1 else sleeps) = i := by
        unfold kMs
        split <;> omega
      simp only [hsl] at h
      have hp' : ∀ t, timeout = some t → 0 ≤ t → (((i + 1 : Nat) : Int) - 1) * kMs ≤ t := by
        intro t ht h0
        rw [ht] at hg
        simp only [goesOn, Bool.or_eq_true, decide_eq_true_eq] at hg
        rcases hg with h | h
        · have : (((i + 1 : Nat) : Int) - 1) = i := by omega
          rw [this]; exact h
        · omega
      split at h
      · rename_i q hq
        obtain ⟨u, b, hu1, hu2, hu3, hb, hv, _⟩ := pollRetry_ok hq
        have hk : heard (u ++ [b]) = [b] := by
          rw [heard_append, hu2, List.nil_append]
          cases b with
          | ret k => rw [heard_cons_ret]; rfl
          | err e => rw [heard_cons_err (fun hh => hb (by rw [hh]))]; rfl
        by_cases h0 : q.1 = 0
        · rw [h0] at h
          have he : (i : Int) * kMs + kMs = ((i + 1 : Nat) : Int) * kMs := by
            rw [Int.natCast_add, Int.add_mul]; simp
          rw [he] at h
          obtain ⟨us, k1, k2, k3, k4, k5⟩ := ih _ (pollRetry_rest hq) (i + 1) (by omega) (fun t ht h0 _ => hp' t ht h0) h rfl
          have hall : heard (u ++ b :: us) = b :: heard us := by
            rw [show u ++ b :: us = (u ++ [b]) ++ us by simp, heard_append, hk]; rfl
          refine ⟨u ++ b :: us, ?_, ?_, ?_, ?_, ?_⟩
          · rw [hu1, k1]; simp
          · rw [k2, hall, List.length_cons]; clear k3 k4 k5; omega
          · intro hr
            obtain ⟨z1, t, z2, z3, z4⟩ := k3 hr
            refine ⟨?_, t, z2, z3, ?_⟩
            · intro a ha
              rw [hall] at ha
              rcases List.mem_cons.1 ha with h | h
              · rw [h, ← hv, h0]
              · exact z1 a h
            · rw [hall, List.length_cons, show i + ((heard us).length + 1) = i + 1 + (heard us).length by omega]; exact z4
          · intro hr
            obtain ⟨l, a, z1, z2, z3⟩ := k4 hr
            refine ⟨b :: l, a, by rw [hall, z1]; rfl, ?_, z3⟩
            intro c hc
            rcases List.mem_cons.1 hc with h | h
            · rw [h, ← hv, h0]
            · exact z2 c h
          · intro t ht hz _
            rw [hall, List.length_cons, show i + ((heard us).length + 1) = i + 1 + (heard us).length by omega]
            exact k5 t ht hz (by omega)
        · rw [pollLoop, if_neg (by rintro ⟨_, h⟩; exact h0 h)] at h
          cases h
          refine ⟨u ++ [b], by rw [hu1]; simp, by rw [hk]; rfl, fun h => absurd h h0, fun _ => ⟨[], b, hk, by simp, hv⟩, ?_⟩
          intro t ht hz _
          rw [hk]
          exact hp' t ht hz
      · cases h
      · cases h
    · rw [if_neg (by rintro ⟨h, _⟩; exact hg h)] at h
      cases h
      refine ⟨[], rfl, by simp [hs, heard], ?_, by simp, ?_⟩
      · intro _
        refine ⟨by simp [heard], ?_⟩
        cases timeout with
        | none => simp [goesOn] at hg
        | some t =>
          simp only [goesOn, Bool.or_eq_true, decide_eq_true_eq, not_or] at hg
          refine ⟨t, rfl, by omega, ?_⟩
          simp only [heard, List.filter_nil, List.length_nil, Nat.add_zero]
          omega
      · intro t ht h0 hi
        simp only [heard, List.filter_nil, List.length_nil, Nat.add_zero] at hi ⊢
        exact hp t ht h0 hi

/-- C78: a poll reports the first event or failure, interruptions left out.  It sleeps a millisecond between polls, never longer
than the timeout in all, and reports that nothing happened only when the next sleep would pass the timeout; with a negative or
infinite timeout it never does. -/
theorem poll_spec {nfds errno : Nat} {timeout : Option Int} {ans : List Ans} {r : Polled}
    (h : safePoll nfds timeout errno ans = .ok r) :
    ∃ used, ans = used ++ r.rest ∧ r.sleeps = (heard used).length - 1 ∧
      (r.rc = 0 → (∀ a ∈ heard used, pollValue nfds a = 0) ∧
        ∃ t, timeout = some t ∧ 0 ≤ t ∧ t < ((r.sleeps : Int) + 1) * kMs) ∧
      (r.rc ≠ 0 → ∃ l a, heard used = l ++ [a] ∧ (∀ b ∈ l, pollValue nfds b = 0) ∧ r.rc = pollValue nfds a) ∧
      (∀ t, timeout = some t → 0 ≤ t → (r.sleeps : Int) * kMs ≤ t) := by
  have h' : pollLoop nfds timeout ((0 : Nat) * kMs) 0 errno 0 ans = .ok r := by simpa [safePoll] using h
  obtain ⟨used, h1, h2, h3, h4, h5⟩ := pollLoop_spec 0 rfl (by intro _ _ _ h; omega) h'
  have hne : 0 < (heard used).length := by
    by_cases hr : r.rc = 0
    · obtain ⟨_, t, _, z1, z2⟩ := h3 hr
      rcases Nat.eq_zero_or_pos (heard used).length with h | h
      · rw [h] at z2; simp at z2; omega
      · exact h
    · obtain ⟨l, a, hl, _⟩ := h4 hr
      rw [hl]; simp
  have hsl : (r.sleeps : Int) + 1 = (heard used).length := by clear h3 h4 h5; omega
  refine ⟨used, h1, by clear h3 h4 h5; omega, ?_, h4, ?_⟩
  · intro hr
    obtain ⟨z1, t, z2, z3, z4⟩ := h3 hr
    refine ⟨z1, t, z2, z3, ?_⟩
    have : ((0 + (heard used).length : Nat) : Int) = (r.sleeps : Int) + 1 := by rw [hsl, Nat.zero_add]
    rw [this] at z4; exact z4
  · intro t ht h0
    have := h5 t ht h0 (by omega)
    have h : (((0 + (heard used).length : Nat) : Int) - 1) = r.sleeps := by rw [Nat.zero_add, ← hsl]; exact Int.add_sub_cancel _ _
    rw [h] at this; exact this

example : safePoll 2 (some (2 * kMs)) 0 [.ret 0, .err 4, .ret 0, .ret 0, .ret 1] = .ok ⟨0, 4, 2, [.ret 1]⟩ := by decide +kernel
example : safePoll 2 none 0 [.ret 0, .err 4, .ret 0, .ret 0, .ret 1] = .ok ⟨1, 4, 3, []⟩ := by decide +kernel

/-! ### Opening -/

theorem openLoop_spec {path : List Nat} {flags mode errno : Nat} {calls : List OpenCall} {ans : List Ans} {r : Opened}
    (h : openLoop path flags mode calls errno ans = .ok r) :
    ∃ n a, ans = List.replicate n (.err EINTR) ++ a :: r.rest ∧
      r.calls = calls ++ List.replicate (n + 1) ⟨path, flags, if flags.testBit 6 then some mode else none⟩ ∧
      ((∃ k, a = .ret k ∧ r.rc = k) ∨ (r.rc = -1 ∧ Failed a r.errno)) := by
  induction ans generalizing calls errno with
  | nil => cases h
  | cons a rest ih =>
    rw [openLoop.eq_def] at h
    simp only at h
    have hcall : (if hasCreat flags then (⟨path, flags, some mode⟩ : OpenCall) else ⟨path, flags, none⟩) =
        ⟨path, flags, if flags.testBit 6 then some mode else none⟩ := by
      unfold hasCreat; split <;> rfl
    rw [hcall] at h
    cases a with
    | ret k =>
      cases h
      exact ⟨0, .ret k, rfl, rfl, Or.inl ⟨k, rfl, rfl⟩⟩
    | err e =>
      simp only at h
      by_cases he : e = EINTR
      · rw [if_pos he] at h
        obtain ⟨n, a, h1, h2, h3⟩ := ih h
        refine ⟨n + 1, a, ?_, ?_, h3⟩
        · rw [h1, he, List.replicate_succ, List.cons_append]
        · rw [h2, List.append_assoc]; rfl
      · rw [if_neg he] at h
        cases h
        exact ⟨0, .err e, rfl, rfl, Or.inr ⟨rfl, rfl, he⟩⟩

/-- C78: opening a file retries with the same arguments as long as signals interrupt it, and returns what the first
uninterrupted call returned; the mode is passed just when the file may be created. -/
theorem open_spec {path : List Nat} {flags mode errno : Nat} {ans : List Ans} {r : Opened}
    (h : safeOpen path flags mode errno ans = .ok r) :
    ∃ n a, ans = List.replicate n (.err EINTR) ++ a :: r.rest ∧
      r.calls = List.replicate (n + 1) ⟨path, flags, if flags.testBit 6 then some mode else none⟩ ∧
      ((∃ k, a = .ret k ∧ r.rc = k) ∨ (r.rc = -1 ∧ Failed a r.errno)) := by
  obtain ⟨n, a, h1, h2, h3⟩ := openLoop_spec h
  exact ⟨n, a, h1, by simpa using h2, h3⟩

example : safeOpen [47] 0x42 0o644 0 [.err 4, .err 4, .ret 3] =
    .ok ⟨3, 4, [⟨[47], 0x42, some 0o644⟩, ⟨[47], 0x42, some 0o644⟩, ⟨[47], 0x42, some 0o644⟩], []⟩ := by decide +kernel

/-! ### Writing -/

theorem writeLoop_spec {buf out0 : List Nat} {count total errno : Nat} {ans : List Ans} (hc : count ≤ buf.length)
    (ht : total ≤ count) :
    writeLoop buf count (out0 ++ buf.take total) total errno ans ≠ .ub ∧
    (writeLoop buf count (out0 ++ buf.take total) total errno ans = .waiting → ans.length ≤ count - total + interruptions ans) ∧
    (∀ r, writeLoop buf count (out0 ++ buf.take total) total errno ans = .ok r →
      total ≤ r.total ∧ r.total ≤ count ∧ r.out = out0 ++ buf.take r.total ∧
      ∃ used a, ans = used ++ a :: r.rest ∧ (r.rc = -1 → Failed a r.errno) ∧
        (r.rc ≠ -1 → 0 ≤ r.rc ∧ r.rc ≤ r.total ∧ (r.total = count ∨ a = .ret 0)) ∧
        (total = 0 → r.rc ≠ -1 → heard used = [] → r.rc = r.total)) := by
  induction ans generalizing total errno with
  | nil => exact ⟨by simp [writeLoop], by simp [writeLoop], fun r h => by simp [writeLoop] at h⟩
  | cons a rest ih =>
    rw [writeLoop.eq_def]
    simp only
    rw [if_neg (by omega)]
    cases a with
    | ret k =>
      simp only
      have hout : out0 ++ buf.take total ++ (buf.drop total).take (min k (count - total)) =
          out0 ++ buf.take (total + min k (count - total)) := by
        rw [List.append_assoc, ← List.take_add]
      rw [hout]
      by_cases hn : min k (count - total) > 0
      · rw [if_pos hn]
        by_cases hm : count > total + min k (count - total)
        · rw [if_pos ⟨hn, hm⟩]
          obtain ⟨h1, h2, h3⟩ := ih (total := total + min k (count - total)) (errno := errno) (by omega)
          refine ⟨h1, ?_, ?_⟩
          · intro hw
            have := h2 hw
            rw [interruptions_cons]
            simp only [List.length_cons]
            omega
          · intro r hr
            obtain ⟨z1, z2, z3, used, a, z4, z5, z6, z7⟩ := h3 r hr
            refine ⟨by omega, z2, z3, .ret k :: used, a, by rw [z4]; rfl, z5, z6, ?_⟩
            intro _ _ hh
            rw [heard_cons_ret] at hh
            cases hh
        · rw [if_neg (fun h => hm h.2)]
          refine ⟨by simp, by simp, ?_⟩
          intro r hr
          cases hr
          exact ⟨Nat.le_add_right _ _, by show total + _ ≤ count; omega, rfl, [], .ret k, rfl,
            fun h => by simp only at h; omega, fun _ => ⟨by simp only; omega, by simp only; omega, Or.inl (by simp only; omega)⟩,
            fun h0 _ _ => by simp only; omega⟩
      · rw [if_neg hn, if_neg (fun h => hn h.1)]
        refine ⟨by simp, by simp, ?_⟩
        intro r hr
        cases hr
        refine ⟨Nat.le_refl _, ht, ?_, [], .ret k, rfl, fun h => by simp only at h; omega,
          fun _ => ⟨by simp only; omega, by simp only; omega, ?_⟩, fun h0 _ _ => by simp only; omega⟩
        · have : min k (count - total) = 0 := by omega
          simp only [this, Nat.add_zero]
        · by_cases hk : k = 0
          · right; rw [hk]
          · left; simp only; omega
    | err e =>
      simp only
      by_cases he : e = EINTR
      · rw [if_pos he]
        obtain ⟨h1, h2, h3⟩ := ih (total := total) (errno := e) ht
        refine ⟨h1, ?_, ?_⟩
        · intro hw
          have := h2 hw
          rw [interruptions_cons, he]
          simp only [List.length_cons, if_true]
          omega
        · intro r hr
          obtain ⟨z1, z2, z3, used, a, z4, z5, z6, z7⟩ := h3 r hr
          refine ⟨z1, z2, z3, .err e :: used, a, by rw [z4]; rfl, z5, z6, ?_⟩
          intro h0 hne hh
          rw [he, heard_cons_eintr] at hh
          exact z7 h0 hne hh
      · rw [if_neg he]
        refine ⟨by simp, by simp, ?_⟩
        intro r hr
        cases hr
        exact ⟨Nat.le_refl _, ht, rfl, [], .err e, rfl, fun _ => ⟨rfl, he⟩, fun h => absurd rfl h, fun _ h => absurd rfl h⟩

/-- C78: however the kernel splits and interrupts a write, the file receives the beginning of the buffer, each byte once and in
order, and `*bytes_written` is how many it received; that is all of them unless a call failed or wrote nothing. -/
theorem write_exact {buf out : List Nat} {count errno : Nat} {ans : List Ans} (hc : count ≤ buf.length) :
    safeWrite buf count out errno ans ≠ .ub ∧
    (count + interruptions ans < ans.length → safeWrite buf count out errno ans ≠ .waiting) ∧
    ∀ r, safeWrite buf count out errno ans = .ok r →
      r.total ≤ count ∧ r.out = out ++ buf.take r.total ∧
      ∃ used a, ans = used ++ a :: r.rest ∧ (r.rc = -1 → Failed a r.errno) ∧ (r.rc ≠ -1 → r.total = count ∨ a = .ret 0) := by
  obtain ⟨h1, h2, h3⟩ := writeLoop_spec (out0 := out) (errno := errno) (ans := ans) hc (Nat.zero_le count)
  rw [show out ++ buf.take 0 = out by simp] at h1 h2 h3
  refine ⟨h1, fun hlt hw => by have := h2 hw; omega, fun r hr => ?_⟩
  obtain ⟨_, z2, z3, used, a, z4, z5, z6, _⟩ := h3 r hr
  exact ⟨z2, z3, used, a, z4, z5, fun h => (z6 h).2.2⟩

example : safeWrite [1, 2, 3, 4, 5] 5 [0] 0 [.err 4, .ret 3, .err 4, .ret 9] = .ok ⟨2, 4, 5, [0, 1, 2, 3, 4, 5], []⟩ := by
  decide +kernel

/-- C79, refuted: the header says a write "returns number of bytes written".  It returns what the last of its writes returned. -/
theorem write_returns_last : ∃ (buf : List Nat) (ans : List Ans) (r : Wrote), safeWrite buf buf.length [] 0 ans = .ok r ∧
    r.out = buf ∧ r.total = buf.length ∧ r.rc ≠ -1 ∧ r.rc ≠ r.out.length :=
  ⟨[1, 2, 3, 4, 5], [.ret 3, .ret 2], ⟨2, 0, 5, [1, 2, 3, 4, 5], []⟩, by decide +kernel, rfl, rfl, by decide, by decide⟩

/-- C79, the part that holds: a write that does not fail never returns more than it wrote, and it returns just that if no write
before the last one wrote anything.  Missing: that it does so whenever the kernel took the bytes in several pieces. -/
theorem write_result_partial {buf out : List Nat} {count errno : Nat} {ans : List Ans} {r : Wrote} (hc : count ≤ buf.length)
    (hr : safeWrite buf count out errno ans = .ok r) (hne : r.rc ≠ -1) :
    0 ≤ r.rc ∧ r.rc ≤ r.total ∧
      ∃ used a, ans = used ++ a :: r.rest ∧ (heard used = [] → r.rc = r.total) := by
  obtain ⟨_, _, h3⟩ := writeLoop_spec (out0 := out) (errno := errno) (ans := ans) hc (Nat.zero_le count)
  rw [show out ++ buf.take 0 = out by simp] at h3
  obtain ⟨_, _, _, used, a, z4, _, z6, z7⟩ := h3 r hr
  exact ⟨(z6 hne).1, (z6 hne).2.1, used, a, z4, fun h => z7 rfl hne h⟩

/-! ### Closing -/

/-- The descriptors other threads opened while the call was running and that were free. -/
def others (t : Table) (w : Turn) : Table := w.opens.foldl Table.opened t

/-- C79, refuted: closing a file whose `close` a signal interrupts reports failure although the file is closed, so that the fence
of the per-CPU caches, which checks for success (percpu.cc:327), ends the process. -/
theorem close_reports_failure : ∃ (t : Table) (turns : List Turn) (r : Closed), (3, 0) ∈ t ∧ (∀ w ∈ turns, w.opens = []) ∧
    safeClose 3 0 t turns = .ok r ∧ (3, 0) ∉ r.table ∧ r.rc = -1 ∧ r.errno = EBADF :=
  ⟨[(3, 0)], [⟨[], true⟩, ⟨[], false⟩], ⟨-1, EBADF, []⟩, by decide, by decide, by decide +kernel, by decide, rfl, rfl⟩

/-- C79, refuted: it also closes the file that another thread opened in between and that got the same descriptor. -/
theorem close_takes_another : ∃ (t : Table) (turns : List Turn) (r : Closed), (3, 0) ∈ t ∧
    (∃ w ∈ turns, (3, 1) ∈ w.opens) ∧ safeClose 3 0 t turns = .ok r ∧ r.rc = 0 ∧ (3, 1) ∉ r.table :=
  ⟨[(3, 0)], [⟨[], true⟩, ⟨[(3, 1)], false⟩], ⟨0, EINTR, []⟩, by decide, by decide, by decide +kernel, rfl, by decide⟩

/-- C79, the part that holds: a `close` that no signal interrupts closes the descriptor, no other one, and reports success. -/
theorem close_partial {fd errno : Nat} {t : Table} {w : Turn} {rest : List Turn} (hs : w.signal = false)
    (hfd : ∃ o, (fd, o) ∈ t) :
    ∃ r, safeClose fd errno t (w :: rest) = .ok r ∧ r.rc = 0 ∧ r.errno = errno ∧
      ∀ f o, (f, o) ∈ r.table ↔ f ≠ fd ∧ (f, o) ∈ others t w := by
  have hmono : ∀ (l : List (Nat × Nat)) (t : Table) (x : Nat × Nat), x ∈ t → x ∈ l.foldl Table.opened t := by
    intro l
    induction l with
    | nil => intro t x h; exact h
    | cons y l ih =>
      intro t x h
      apply ih
      unfold Table.opened
      split
      · exact h
      · exact List.mem_append_left _ h
  obtain ⟨o, ho⟩ := hfd
  have hin := hmono w.opens t _ ho
  have hany : (w.opens.foldl Table.opened t).any (fun x => decide (x.1 = fd)) = true := by
    rw [List.any_eq_true]
    exact ⟨_, hin, by simp⟩
  refine ⟨⟨0, errno, (w.opens.foldl Table.opened t).filter (fun x => decide (x.1 ≠ fd))⟩, ?_, rfl, rfl, ?_⟩
  · rw [safeClose]
    simp only [hany, if_true, hs]
    rfl
  · intro f o
    rw [List.mem_filter]
    simp only [decide_eq_true_eq]
    exact ⟨fun h => ⟨h.2, h.1⟩, fun h => ⟨h.2, h.1⟩⟩

example : safeClose 3 7 [(3, 0), (4, 1)] [⟨[(5, 1), (3, 2)], false⟩] = .ok ⟨0, 7, [(4, 1), (5, 1)]⟩ := by decide +kernel

end Verif.SafeIo
