import Verif.CpuCache.Step
import Verif.Slab.Props
/-! What a step of a thread does to the slabs and to the objects outside. -/
namespace Verif.CpuCache
open Slab (Valid GoodObj Kind Sub Under Same SameBut Effect After)

variable {cfg : Cfg} {limit : Nat}

/-- The objects that leave with what a step shows. -/
def Out.leaves : Out → List (Nat × Nat)
  | .toBacking k l => pairs k l
  | _ => []

/-- The slab operation a thread starts in a state. -/
def Calls (w : W) : St → Slab.Op → Prop
  | .slow _, op => op = .cache
  | .retry (.alloc k) _, op => op = .pop k
  | .retry (.free k o) _, op => op = .push k o
  | .grow q _ _ _, op => ∃ n, op = .grow q.cls n
  | .store r l _, op => op = .pushB r.k l
  | .gather v, op => ∃ n, 0 < n ∧ op = .popB v.k n
  | .drain0 c, op | .classes0 c _, op | .steal _ _ _ (.lock c) _, op => w.lockFree c = true ∧ op = .remote c
  | _, _ => False

/-- The batch a thread gives to the layer below in a state. -/
def Sends : St → Nat → List Nat → Prop
  | .sendOne k o, k', l => k' = k ∧ l = [o]
  | .back r m, k', l => k' = r.k ∧ l = m
  | .flush v, k', l => k' = v.k ∧ l = v.batch
  | .drain _ _ _ out, k', l | .classes _ _ out, k', l | .steal _ _ _ (.work _) out, k', l | .all out, k', l => ∃ rest, out = (k', l) :: rest
  | _, _, _ => False

/-- What a step does to the slabs. -/
inductive Did (cfg : Cfg) (w : W) (i : Nat) (ch : Ch) (st : St) (s' : Slab.W) : Out → Prop
  | none {out} : s' = w.s → out.leaves = [] → Did cfg w i ch st s' out
  | act {out} (c' : Slab.Ch) (o : Slab.Out) : Slab.step cfg.slab w.s (.act i c') = some (s', o) → out.leaves = [] →
      (2 ≤ c'.op → 2 ≤ ch.s.op ∧ c'.k = ch.s.k) → Did cfg w i ch st s' out
  | call {out} (op : Slab.Op) (o : Slab.Out) : Calls w st op → Slab.step cfg.slab w.s (.call i op) = some (s', o) →
      out.leaves = [] → Did cfg w i ch st s' out
  | send (k : Nat) (l : List Nat) : Sends st k l → l ≠ [] → l.length ≤ kMaxObjectsToMove →
      s' = { w.s with held := Slab.eraseAll w.s.held (pairs k l) } → Did cfg w i ch st s' (.toBacking k l)

theorem act_did {w w' : W} {i : Nat} {ch : Ch} {st : St} {c' : Slab.Ch} {out : Out} {f : W → Slab.Out → Option (W × Out)}
    (h : w.act cfg i c' f = some (w', out)) (hf : ∀ s o x y, f { w with s := s } o = some (x, y) → x.s = s ∧ y.leaves = [])
    (hc : 2 ≤ c'.op → 2 ≤ ch.s.op ∧ c'.k = ch.s.k) : Did cfg w i ch st w'.s out := by
  unfold W.act at h
  split at h
  · rename_i s o e
    obtain ⟨h1, h2⟩ := hf s o w' out h
    exact .act c' o (by rw [h1]; exact e) h2 hc
  · cases h

theorem call_did {w w' : W} {i : Nat} {ch : Ch} {st : St} {op : Slab.Op} {out : Out} {f : W → Slab.Out → Option (W × Out)}
    (h : w.call cfg i op f = some (w', out)) (hf : ∀ s o x y, f { w with s := s } o = some (x, y) → x.s = s ∧ y.leaves = [])
    (hc : Calls w st op) : Did cfg w i ch st w'.s out := by
  unfold W.call at h
  split at h
  · rename_i s o e
    obtain ⟨h1, h2⟩ := hf s o w' out h
    exact .call op o hc (by rw [h1]; exact e) h2
  · cases h

theorem start_did {w w0 w' : W} {i : Nat} {ch : Ch} {st st' : St} {op : Slab.Op} {out : Out}
    (h : w0.start cfg i op st' = some (w', out)) (h0 : w0.s = w.s) (hc : Calls w st op) : Did cfg w i ch st w'.s out := by
  unfold W.start W.call at h
  split at h
  · rename_i s o e
    injection h with h; injection h with h1 h2
    subst h1 h2
    rw [h0] at e
    exact .call op o hc e rfl
  · cases h

theorem release_did {w w' : W} {i : Nat} {ch : Ch} {st : St} {k : Nat} {l : List Nat} {out : Out} {g : W → W}
    (h : (w.release k l).map (fun x => (g x.1, x.2)) = some (w', out)) (hg : ∀ x, (g x).s = x.s) (hc : Sends st k l) :
    Did cfg w i ch st w'.s out := by
  unfold W.release at h
  split at h
  · cases h
  · rename_i hl
    injection h with h; injection h with h1 h2
    subst h1 h2
    refine .send k l hc (fun a => hl (Or.inl a)) ?_ (by rw [hg]; rfl)
    have : ¬ kMaxObjectsToMove < l.length := fun a => hl (Or.inr a)
    omega

theorem addAvail_s {w x : W} {c b : Nat} (h : w.addAvail c b = some x) : x.s = w.s := by
  unfold W.addAvail at h
  split at h
  · injection h with h; rw [← h]
  · cases h

theorem handle_s {w : W} {c k cap : Nat} {l : List Nat} {x : W × List (Nat × List Nat)} (h : w.handle cfg c k l cap = some x) : x.1.s = w.s := by
  unfold W.handle at h
  split at h
  · cases h
  · rw [Option.map_eq_some_iff] at h
    obtain ⟨y, h1, h2⟩ := h
    rw [← h2]; exact addAvail_s h1

theorem step_did {w w' : W} {i : Nat} {ch : Ch} {st : St} {out : Out} (h : stepTh cfg w i ch st = some (w', out)) :
    Did cfg w i ch st w'.s out := by
  have inj : ∀ {a b : W × Out}, some a = some b → a.1 = b.1 ∧ a.2 = b.2 := by
    intro a b h; injection h with h; subst h; exact ⟨rfl, rfl⟩
  cases st with
  | steal dst bytes acq ph outs =>
    simp only [stepTh] at h
    cases ph with
    | work src =>
      cases outs with
      | nil =>
        simp only [stepSteal] at h
        refine act_did h ?_ ?_
        · intro s o x y hf
          repeat' split at hf
          all_goals first
            | cases hf; done
            | (obtain ⟨h1, h2⟩ := inj hf; dsimp only at h1 h2; subst h1 h2; exact ⟨rfl, rfl⟩)
            | (obtain ⟨h1, h2⟩ := inj hf; dsimp only at h1 h2; subst h1 h2; refine ⟨?_, rfl⟩; split <;> rfl)
        · unfold W.stealCh
          split
          · split
            · exact fun h => ⟨h, rfl⟩
            · intro h; simp at h
          · exact fun h => ⟨h, rfl⟩
      | cons x outs =>
        exact release_did (g := fun z => z.go i _) h (fun _ => rfl) ⟨outs, rfl⟩
    | pick =>
      simp only [stepSteal] at h
      split at h
      · split at h
        · obtain ⟨h1, h2⟩ := inj h; dsimp only at h1 h2; subst h1 h2; exact .none rfl rfl
        · rw [Option.map_eq_some_iff] at h
          obtain ⟨y, h1, h2⟩ := h
          cases h2
          exact .none (show (y.s : Slab.W) = w.s from addAvail_s h1) rfl
      · split at h
        · obtain ⟨h1, h2⟩ := inj h; dsimp only at h1 h2; subst h1 h2; exact .none rfl rfl
        · obtain ⟨h1, h2⟩ := inj h; dsimp only at h1 h2; subst h1 h2; exact .none rfl rfl
    | pend src b lk =>
      simp only [stepSteal] at h
      split at h
      · cases h
      · obtain ⟨h1, h2⟩ := inj h; dsimp only at h1 h2; subst h1 h2; exact .none rfl rfl
    | lock src =>
      simp only [stepSteal] at h
      split at h
      · rename_i hl; exact start_did h rfl ⟨hl, rfl⟩
      · obtain ⟨h1, h2⟩ := inj h; dsimp only at h1 h2; subst h1 h2; exact .none rfl rfl
    | last =>
      simp only [stepSteal] at h
      split at h
      · obtain ⟨h1, h2⟩ := inj h; dsimp only at h1 h2; subst h1 h2; exact .none rfl rfl
      · cases h
  | all outs =>
    simp only [stepTh] at h
    cases outs with
    | nil =>
      simp only [stepAll] at h
      split at h
      · refine act_did h ?_ (fun h => ⟨h, rfl⟩)
        intro s o x y hf
        split at hf
        · split at hf <;> (obtain ⟨h1, h2⟩ := inj hf; dsimp only at h1 h2; subst h1 h2; exact ⟨rfl, rfl⟩)
        · rw [Option.map_eq_some_iff] at hf
          obtain ⟨z, h1, h2⟩ := hf
          cases h2
          exact ⟨handle_s h1, rfl⟩
        · cases hf
      · cases h
    | cons x outs => exact release_did (g := fun z => z.go i _) h (fun _ => rfl) ⟨outs, rfl⟩
  | drain c dn b outs =>
    cases outs with
    | nil =>
      simp only [stepTh, stepCpu] at h
      refine act_did h ?_ ?_
      · intro s o x y hf
        split at hf
        · split at hf <;> (obtain ⟨h1, h2⟩ := inj hf; dsimp only at h1 h2; subst h1 h2; exact ⟨rfl, rfl⟩)
        · rw [Option.map_eq_some_iff] at hf
          obtain ⟨z, h1, h2⟩ := hf
          cases h2
          exact ⟨handle_s h1, rfl⟩
        · cases hf
      · unfold W.drainCh
        split
        · intro h; simp only at h; split at h <;> omega
        · exact fun h => ⟨h, rfl⟩
    | cons x outs => exact release_did (g := fun z => z.go i _) h (fun _ => rfl) ⟨outs, rfl⟩
  | classes c av outs =>
    cases outs with
    | nil =>
      simp only [stepTh, stepCpu] at h
      refine act_did h ?_ ?_
      · intro s o x y hf
        repeat' split at hf
        all_goals first
          | cases hf; done
          | (obtain ⟨h1, h2⟩ := inj hf; dsimp only at h1 h2; subst h1 h2; exact ⟨rfl, rfl⟩)
      · unfold W.classesCh
        split
        · split
          · exact fun h => ⟨h, rfl⟩
          · split
            · rename_i h; exact fun _ => ⟨by omega, rfl⟩
            · intro h; simp at h
        · exact fun h => ⟨h, rfl⟩
    | cons x outs => exact release_did (g := fun z => z.go i _) h (fun _ => rfl) ⟨outs, rfl⟩
  | drain0 c =>
    simp only [stepTh, stepCpu] at h
    split at h
    · rename_i hl; exact start_did h rfl ⟨hl, rfl⟩
    · obtain ⟨h1, h2⟩ := inj h; dsimp only at h1 h2; subst h1 h2; exact .none rfl rfl
  | classes0 c av =>
    simp only [stepTh, stepCpu] at h
    split at h
    · rename_i hl; exact start_did h rfl ⟨hl, rfl⟩
    · obtain ⟨h1, h2⟩ := inj h; dsimp only at h1 h2; subst h1 h2; exact .none rfl rfl
  | classes1 c av =>
    simp only [stepTh, stepCpu] at h
    rw [Option.map_eq_some_iff] at h
    obtain ⟨y, h1, h2⟩ := h
    cases h2
    exact .none (show (y.s : Slab.W) = w.s from addAvail_s h1) rfl
  | grown q c succ b =>
    simp only [stepTh, stepGrow] at h
    rw [Option.map_eq_some_iff] at h
    obtain ⟨y, h1, h2⟩ := h
    cases h2
    exact .none (show (y.s : Slab.W) = w.s from addAvail_s h1) rfl
  | slow q =>
    simp only [stepTh, stepFast] at h
    split at h
    · obtain ⟨h1, h2⟩ := inj h; dsimp only at h1 h2; subst h1 h2; exact .none rfl rfl
    · refine call_did h ?_ rfl
      intro s o x y hf
      repeat' split at hf
      all_goals first
        | cases hf; done
        | (obtain ⟨h1, h2⟩ := inj hf; dsimp only at h1 h2; subst h1 h2; exact ⟨rfl, rfl⟩)
  | retry q c =>
    cases q with
    | alloc k => exact start_did h rfl rfl
    | free k o => exact start_did h rfl rfl
  | grow q c succ inc =>
    simp only [stepTh, stepGrow] at h
    split at h
    · obtain ⟨h1, h2⟩ := inj h; dsimp only at h1 h2; subst h1 h2; exact .none rfl rfl
    · split at h
      · cases h
      · exact start_did h rfl ⟨_, rfl⟩
  | store r l got => exact start_did h rfl rfl
  | gather v =>
    simp only [stepTh, stepOver] at h
    split at h
    · cases h
    · split at h
      · exact start_did h rfl ⟨_, by omega, rfl⟩
      · obtain ⟨h1, h2⟩ := inj h; dsimp only at h1 h2; subst h1 h2; exact .none rfl rfl
  | sendOne k o =>
    simp only [stepTh, stepFast] at h
    exact release_did (g := fun z => z.go i _) h (fun _ => rfl) ⟨rfl, rfl⟩
  | back r l => exact release_did (g := fun z => z.go i _) h (fun _ => rfl) ⟨rfl, rfl⟩
  | flush v => exact release_did (g := fun z => z.go i _) h (fun _ => rfl) ⟨rfl, rfl⟩
  | pop k again =>
    simp only [stepTh, stepFast] at h
    refine act_did h ?_ (fun h => ⟨h, rfl⟩)
    intro s o x y hf
    repeat' split at hf
    all_goals first
      | cases hf; done
      | (obtain ⟨h1, h2⟩ := inj hf; dsimp only at h1 h2; subst h1 h2; exact ⟨rfl, rfl⟩)
  | push k ob again =>
    simp only [stepTh, stepFast] at h
    refine act_did h ?_ (fun h => ⟨h, rfl⟩)
    intro s o x y hf
    repeat' split at hf
    all_goals first
      | cases hf; done
      | (obtain ⟨h1, h2⟩ := inj hf; dsimp only at h1 h2; subst h1 h2; exact ⟨rfl, rfl⟩)
  | caching q =>
    simp only [stepTh, stepFast] at h
    refine act_did h ?_ (fun h => ⟨h, rfl⟩)
    intro s o x y hf
    repeat' split at hf
    all_goals first
      | cases hf; done
      | (obtain ⟨h1, h2⟩ := inj hf; dsimp only at h1 h2; subst h1 h2; exact ⟨rfl, rfl⟩)
  | growing q c succ len got =>
    simp only [stepTh, stepGrow] at h
    refine act_did h ?_ (fun h => ⟨h, rfl⟩)
    intro s o x y hf
    repeat' split at hf
    all_goals first
      | cases hf; done
      | (obtain ⟨h1, h2⟩ := inj hf; dsimp only at h1 h2; subst h1 h2; exact ⟨rfl, rfl⟩)
  | storing r l got =>
    simp only [stepTh, stepRefill] at h
    refine act_did h ?_ (fun h => ⟨h, rfl⟩)
    intro s o x y hf
    repeat' split at hf
    all_goals first
      | cases hf; done
      | (obtain ⟨h1, h2⟩ := inj hf; dsimp only at h1 h2; subst h1 h2; exact ⟨rfl, rfl⟩)
  | gathering v n =>
    simp only [stepTh, stepOver] at h
    refine act_did h ?_ (fun h => ⟨h, rfl⟩)
    intro s o x y hf
    repeat' split at hf
    all_goals first
      | cases hf; done
      | (obtain ⟨h1, h2⟩ := inj hf; dsimp only at h1 h2; subst h1 h2; exact ⟨rfl, rfl⟩)
  | _ =>
    simp only [stepTh, stepFast, stepGrow, stepRefill, stepOver] at h
    repeat' split at h
    all_goals first
      | cases h; done
      | (obtain ⟨h1, h2⟩ := inj h; dsimp only at h1 h2; subst h1 h2; exact .none rfl rfl)

theorem calls_pre {w : W} (k : K cfg limit w) {i : Nat} {st : St} (hi : w.th[i]? = some st)
    (hr : ∃ t : Slab.Thread, w.s.thr[i]? = some t ∧ t.cpu ≠ none) {op : Slab.Op} (h : Calls w st op) :
    Slab.Pre cfg.slab w.s (.call i op) := by
  obtain ⟨t, hrun, hfit, -⟩ := k.run hi hr
  have hok := k.ok i st hi
  have lock : ∀ {c}, w.lockFree c = true → c < cfg.slab.n → c < cfg.slab.n ∧ w.s.rem c = none ∧ w.s.allFree = true := by
    intro c hl hc
    unfold W.lockFree at hl
    rw [Bool.and_eq_true] at hl
    exact ⟨hc, by simpa using hl.1, hl.2⟩
  cases st
  case slow q => cases h; exact ⟨t, hrun.thr, call_pre k hrun hfit, hrun.cpu, trivial⟩
  case retry q c =>
    cases q with
    | alloc x => cases h; exact ⟨t, hrun.thr, call_pre k hrun hfit, hrun.cpu, hok.1⟩
    | free x o =>
      cases h
      have hm : (x, o) ∈ w.s.held := k.hand_mem hi (by simp [St.hand, Req.hand])
      exact ⟨t, hrun.thr, call_pre k hrun hfit, hrun.cpu, hok.1, (k.hand_used hm).2, hm⟩
  case grow q c su inc =>
    obtain ⟨n, rfl⟩ := h
    exact ⟨t, hrun.thr, call_pre k hrun hfit, hrun.cpu, hok.1.1⟩
  case store r l got =>
    cases h
    obtain ⟨h1, h2, h3, h4⟩ := hok
    refine ⟨t, hrun.thr, call_pre k hrun hfit, hrun.cpu, h1.used.1, h2, ?_, ?_⟩
    · intro o ho
      have : (r.k, o) ∈ w.s.held := k.hand_mem hi (x := (r.k, o)) (List.mem_append_right _ (List.mem_map.mpr ⟨o, ho, rfl⟩))
      exact (k.hand_used this).2
    · intro a
      have := k.hand_le hi a
      have e : (St.store r l got).hand = pairs r.k r.res.toList ++ pairs r.k l := rfl
      rw [e, List.count_append] at this
      show (pairs r.k l).count a ≤ _
      omega
  case gather v =>
    obtain ⟨n, hn, rfl⟩ := h
    exact ⟨t, hrun.thr, call_pre k hrun hfit, hrun.cpu, hok.1.used.1, hn⟩
  case drain0 c =>
    obtain ⟨hl, rfl⟩ := h
    exact ⟨t, hrun.thr, call_pre k hrun hfit, hrun.cpu, lock hl hok⟩
  case classes0 c av =>
    obtain ⟨hl, rfl⟩ := h
    exact ⟨t, hrun.thr, call_pre k hrun hfit, hrun.cpu, lock hl hok⟩
  case steal dst b acq ph out =>
    cases ph with
    | lock c =>
      obtain ⟨hl, rfl⟩ := h
      exact ⟨t, hrun.thr, call_pre k hrun hfit, hrun.cpu, lock hl hok.2.2.1⟩
    | _ => cases h
  all_goals cases h

theorem sends_le {st : St} {x : Nat} {l : List Nat} (h : Sends st x l)
    (a : Nat × Nat) : (pairs x l).count a ≤ st.hand.count a := by
  have outs : ∀ out : List (Nat × List Nat), (∃ rest, out = (x, l) :: rest) →
      (pairs x l).count a ≤ (out.flatMap fun y => pairs y.1 y.2).count a := by
    rintro _ ⟨rest, rfl⟩
    rw [List.flatMap_cons, List.count_append]; exact Nat.le_add_right _ _
  cases st
  case sendOne y o => obtain ⟨rfl, rfl⟩ := h; exact Nat.le_refl _
  case back r m => obtain ⟨rfl, rfl⟩ := h; simp only [St.hand, List.count_append]; omega
  case flush v => obtain ⟨rfl, rfl⟩ := h; exact Nat.le_refl _
  case drain c d b out => exact outs out h
  case classes c d out => exact outs out h
  case all out => exact outs out h
  case steal dst b acq ph out =>
    cases ph with
    | work c => exact outs out h
    | _ => cases h
  all_goals cases h

/-- One step of a thread: nothing is lost or duplicated. -/
theorem stepTh_kept {w w' : W} (k : K cfg limit w) {i : Nat} {st : St} (hi : w.th[i]? = some st)
    (hr : ∃ t : Slab.Thread, w.s.thr[i]? = some t ∧ t.cpu ≠ none) {ch : Ch} (hv : st.isAll = false → 2 ≤ ch.s.op → Valid cfg.slab.nc ch.s.k)
    {out : Out} (h : stepTh cfg w i ch st = some (w', out)) (a : Nat × Nat) :
    (w'.s.everything cfg.slab).count a + out.leaves.count a = (w.s.everything cfg.slab).count a := by
  cases step_did h with
  | none h1 h2 => rw [h1, h2]; rfl
  | act c' o h1 h2 h3 =>
    obtain ⟨t, h4, h5⟩ := hr
    have hp : Slab.Pre cfg.slab w.s (.act i c') := by
      obtain ⟨t', hrun, hfit, -⟩ := k.run hi ⟨t, h4, h5⟩
      refine ⟨t', hrun.thr, hrun.cpu, fun _ _ e1 e2 h => ?_⟩
      obtain ⟨h6, h7⟩ := h3 h
      rw [h7]; exact hv (all_pc hfit e1 e2) h6
    have : (w'.s.everything cfg.slab).Perm (w.s.everything cfg.slab) := Slab.conserved _ _ k.slab _ hp _ h1
    rw [h2, this.count_eq]; rfl
  | call op o h1 h2 h3 =>
    have : (w'.s.everything cfg.slab).Perm (w.s.everything cfg.slab) := Slab.conserved _ _ k.slab _ (calls_pre k hi hr h1) _ h2
    rw [h3, this.count_eq]; rfl
  | send x l h1 h2 h3 h4 =>
    have hle : ∀ b, (pairs x l).count b ≤ w.s.held.count b := fun b => Nat.le_trans (sends_le h1 b) (k.hand_le hi b)
    have := Slab.eraseAll_count (pairs x l) w.s.held hle a
    rw [h4, Slab.everything_count, Slab.everything_count]
    show (Slab.eraseAll w.s.held (pairs x l)).count a + w.s.hands.count a + (w.s.cells cfg.slab).count a + (pairs x l).count a = _
    omega

end Verif.CpuCache
