import Verif.Recorder.Step
/-! Nothing is lost: a sample once made is published or in the hands of a call of `Register`; the callback and the published samples through a run. -/
namespace Verif.Recorder

def Th.holds (x : Th) (p : Nat) : Prop := ∃ d, x = .made p d ∨ x = .push p d

theorem Pending.snoc {tr : Trace} {t p : Nat} (h : Pending tr t p) {x : Ev × Out} (h1 : x.1 ≠ .new t p) (h2 : ∀ q d, x.2 ≠ .registered t q d) :
    Pending (tr ++ [x]) t p := by
  obtain ⟨tr0, tr1, a, b⟩ := h
  refine ⟨tr0, tr1 ++ [x], a.snoc h1, fun y hy => ?_⟩
  rcases List.mem_append.1 hy with hy | hy
  · exact b y hy
  · rw [List.mem_singleton.1 hy]; exact h2

structure Held (tr : Trace) (s : St) (L : List Nat) : Prop where
  all : ∀ p ∈ s.used, p ∈ L ∨ ∃ t, (s.th t).holds p
  pend : ∀ t p, (s.th t).holds p → Pending tr t p

/-- A step of `t` that makes no sample and does not end a `Register` that made one. -/
theorem Held.frame {tr : Trace} {s s' : St} {L : List Nat} (H : Held tr s L) {t : Nat} {x : Th} {e : Ev} {o : Out} (hu : s'.used = s.used)
    (hth : ∀ u, u ≠ t → s'.th u = s.th u) (hx : s'.th t = x) (h1 : ∀ p, x.holds p ↔ (s.th t).holds p) (he : ∀ u p, e ≠ .new u p)
    (ho : ∀ u q d, o = .registered u q d → u = t ∧ ∀ p, ¬ x.holds p) : Held (tr ++ [(e, o)]) s' L := by
  have hh : ∀ u p, (s'.th u).holds p ↔ (s.th u).holds p := fun u p => by
    by_cases hut : u = t
    · rw [hut, hx]; exact h1 p
    · rw [hth u hut]
  refine ⟨fun p hp => ?_, fun u p hp => (H.pend u p ((hh u p).1 hp)).snoc (he u p) fun q d hod => ?_⟩
  · rcases H.all p (hu ▸ hp) with h | ⟨u, h⟩
    · exact Or.inl h
    · exact Or.inr ⟨u, (hh u p).2 h⟩
  · obtain ⟨rfl, hn⟩ := ho u q d hod
    exact hn p (by rw [← hx]; exact hp)

theorem not_holds_idle (p : Nat) : ¬ Th.idle.holds p := by rintro ⟨d, h | h⟩ <;> cases h
theorem not_holds_want (p d : Nat) : ¬ (Th.want d).holds p := by rintro ⟨d, h | h⟩ <;> cases h
theorem not_holds_dying (p q : Nat) : ¬ (Th.dying q).holds p := by rintro ⟨d, h | h⟩ <;> cases h
theorem not_holds_iter (p q : Nat) (o : List (Nat × Nat)) : ¬ (Th.iter q o).holds p := by rintro ⟨d, h | h⟩ <;> cases h
theorem not_holds_sweep (p q : Nat) (o : Option Nat) : ¬ (Th.sweep q o).holds p := by rintro ⟨d, h | h⟩ <;> cases h

theorem Held.step {tr : Trace} {s s' : St} {L : List Nat} (H : Held tr s L) {e : Ev} {o : Out} (h : step s e = some (s', o)) :
    Held (tr ++ [(e, o)]) s' (grow L e o) := by
  have quiet : ∀ (t : Nat) (x : Th) {s' : St} {e : Ev} {o : Out}, s'.used = s.used → s'.th = upd s.th t x → (∀ p, ¬ x.holds p) → (∀ p, ¬ (s.th t).holds p) →
      (∀ u p, e ≠ .new u p) → (∀ u q d, o ≠ .registered u q d) → Held (tr ++ [(e, o)]) s' L :=
    fun t x s' e o a b c d h5 h6 => H.frame (t := t) (x := x) a (fun u hu => by rw [b, upd_ne _ _ hu]) (by rw [b, upd_same]) (fun p => ⟨fun h => absurd h (c p), fun h => absurd h (d p)⟩) h5
      (fun u q d h => absurd h (h6 u q d))
  cases e with
  | register t d =>
    simp only [Recorder.step] at h
    split at h
    · rename_i ht hg
      split at h
      · cases h
        exact quiet t (.want d) rfl rfl (fun p => not_holds_want p d) (fun p => by rw [ht]; exact not_holds_idle p) (fun u p h => (by cases h)) (fun u q d h => (by cases h))
      · cases h
        refine H.frame (t := t) (x := .idle) rfl (fun _ _ => rfl) ht (fun p => by rw [ht]) (fun u p h => (by cases h)) (fun u q d h => ?_)
        cases h; exact ⟨rfl, not_holds_idle⟩
    · cases h
  | new t p =>
    simp only [Recorder.step] at h
    split at h
    · rename_i d ht
      cases h
      refine ⟨fun q hq => ?_, fun u q hq => ?_⟩
      · show q ∈ L ∨ ∃ u, (upd s.th t (.made p d) u).holds q
        rcases List.mem_cons.1 hq with rfl | hq
        · exact Or.inr ⟨t, d, Or.inl (upd_same ..)⟩
        · rcases H.all q hq with h | ⟨u, h⟩
          · exact Or.inl h
          · refine Or.inr ⟨u, ?_⟩
            rw [upd_ne]
            · exact h
            · intro hu; rw [hu, ht] at h; exact not_holds_want _ _ h
      · have hq : (upd s.th t (.made p d) u).holds q := hq
        by_cases hut : u = t
        · rw [hut, upd_same] at hq
          obtain ⟨d', h | h⟩ := hq
          · cases h
            exact ⟨tr, [(.new t p, .none)], by rw [hut]; exact ⟨rfl, rfl, fun x hx => (by cases hx)⟩, fun x hx q d h => by
              rw [List.mem_singleton.1 hx] at h; cases h⟩
          · cases h
        · rw [upd_ne _ _ hut] at hq
          exact (H.pend u q hq).snoc (fun h => by cases h; exact hut rfl) (fun q d h => (by cases h))
    · cases h
  | load t =>
    simp only [Recorder.step] at h
    split at h
    · rename_i p d ht
      cases h
      refine H.frame (t := t) (x := .push p d) rfl (fun u hu => upd_ne _ _ hu) (upd_same ..) (fun q => ?_) (fun u p h => (by cases h)) (fun u q d h => (by cases h))
      rw [ht]
      constructor
      · rintro ⟨d', h | h⟩ <;> cases h; exact ⟨_, Or.inl rfl⟩
      · rintro ⟨d', h | h⟩ <;> cases h; exact ⟨_, Or.inr rfl⟩
    · cases h
  | cas t b =>
    simp only [Recorder.step] at h
    split at h
    · rename_i p d ht
      split at h
      · rename_i ha
        cases h
        refine ⟨fun q hq => ?_, fun u q hq => ?_⟩
        · show q ∈ p :: L ∨ ∃ u, (upd s.th t .idle u).holds q
          rcases H.all q hq with h | ⟨u, h⟩
          · exact Or.inl (List.mem_cons_of_mem _ h)
          · by_cases hut : u = t
            · rw [hut, ht] at h
              obtain ⟨d', h | h⟩ := h <;> cases h
              exact Or.inl (List.mem_cons_self ..)
            · exact Or.inr ⟨u, by rw [upd_ne _ _ hut]; exact h⟩
        · have hq : (upd s.th t .idle u).holds q := hq
          by_cases hut : u = t
          · rw [hut, upd_same] at hq; exact absurd hq (not_holds_idle _)
          · rw [upd_ne _ _ hut] at hq
            exact (H.pend u q hq).snoc (fun h => (by cases h)) (fun q d h => by cases h; exact hut rfl)
      · cases h
        exact H.frame (t := t) (x := s.th t) rfl (fun u hu => rfl) rfl (fun q => Iff.rfl) (fun u p h => (by cases h)) (fun u q d h => (by cases h))
    · cases h
  | unregister t p =>
    simp only [Recorder.step] at h
    split at h
    · rename_i ht
      cases h
      refine quiet t (.dying p) rfl rfl (fun q => not_holds_dying q p) (fun p => by rw [ht]; exact not_holds_idle p) (fun u p h => (by cases h)) (fun u q d h => ?_)
      split at h <;> cases h
    · cases h
  | bury t =>
    simp only [Recorder.step] at h
    split at h
    · rename_i ht hg
      cases h
      exact quiet t .idle rfl rfl not_holds_idle (fun p => by rw [ht]; exact not_holds_dying p _) (fun u p h => (by cases h)) (fun u q d h => (by cases h))
    · cases h
  | setDispose f =>
    cases h
    exact H.frame (t := 0) (x := s.th 0) rfl (fun u hu => rfl) rfl (fun q => Iff.rfl) (fun u p h => (by cases h)) (fun u q d h => (by cases h))
  | iterate t =>
    simp only [Recorder.step] at h
    split at h
    · rename_i ht
      cases h
      exact quiet t _ rfl rfl (fun p => not_holds_iter p _ _) (fun p => by rw [ht]; exact not_holds_idle p) (fun u p h => (by cases h)) (fun u q d h => (by cases h))
    · cases h
  | visit t =>
    simp only [Recorder.step] at h
    split at h
    · rename_i p out ht
      have h0 : ∀ p, ¬ (s.th t).holds p := fun p => by rw [ht]; exact not_holds_iter _ _ _
      split at h
      · cases h
        exact quiet t _ rfl rfl not_holds_idle h0 (fun u p h => (by cases h)) (fun u q d h => (by cases h))
      · split at h
        · cases h
          exact quiet t _ rfl rfl (fun p => not_holds_iter p _ _) h0 (fun u p h => (by cases h)) (fun u q d h => (by cases h))
        · cases h
          exact quiet t _ rfl rfl (fun p => not_holds_iter p _ _) h0 (fun u p h => (by cases h)) (fun u q d h => (by cases h))
    · cases h
  | clear t =>
    simp only [Recorder.step] at h
    split at h
    · rename_i ht hg
      cases h
      exact quiet t _ rfl rfl (fun p => not_holds_sweep p _ _) (fun p => by rw [ht]; exact not_holds_idle p) (fun u p h => (by cases h)) (fun u q d h => (by cases h))
    · cases h
  | sweep t =>
    simp only [Recorder.step] at h
    split at h
    · rename_i p cb ht
      have h0 : ∀ p, ¬ (s.th t).holds p := fun p => by rw [ht]; exact not_holds_sweep _ _ _
      split at h
      · cases h
        exact quiet t _ rfl rfl not_holds_idle h0 (fun u p h => (by cases h)) (fun u q d h => (by cases h))
      · split at h
        · cases h
          exact quiet t _ rfl rfl (fun p => not_holds_sweep p _ _) h0 (fun u p h => (by cases h)) (fun u q d h => (by cases h))
        · cases h
          exact quiet t _ rfl rfl (fun p => not_holds_sweep p _ _) h0 (fun u p h => (by cases h)) (fun u q d h => (by cases h))
    · cases h

theorem callback_snoc (tr : Trace) (x : Ev × Out) : callback (tr ++ [x]) = match x.1 with | .setDispose g => g | _ => callback tr := by
  simp only [callback, List.foldl_append, List.foldl_cons, List.foldl_nil]
  cases x.1 <;> rfl

structure CbOK (tr : Trace) (s : St) : Prop where
  cb : s.cb = callback tr
  sw : ∀ t p cb, s.th t = .sweep p cb → ∃ tr0 tr1, Since (.clear t) tr tr0 tr1 ∧ cb = callback tr0

theorem CbOK.step {tr : Trace} {s s' : St} (H : CbOK tr s) {e : Ev} {o : Out} (h : step s e = some (s', o)) : CbOK (tr ++ [(e, o)]) s' := by
  have keep : ∀ {s' : St} {e : Ev} {o : Out}, s'.cb = s.cb → (∀ f, e ≠ .setDispose f) → (∀ t, e ≠ .clear t) →
      (∀ t p cb, s'.th t = .sweep p cb → ∃ p', s.th t = .sweep p' cb) → CbOK (tr ++ [(e, o)]) s' := by
    intro s' e o a b c d
    refine ⟨?_, fun t p cb hh => ?_⟩
    · rw [callback_snoc, a, H.cb]
      cases e <;> first | rfl | exact absurd rfl (b _)
    · obtain ⟨p', hp'⟩ := d t p cb hh
      obtain ⟨tr0, tr1, i1, i2⟩ := H.sw t p' cb hp'
      exact ⟨tr0, tr1 ++ [(e, o)], i1.snoc (c t), i2⟩
  have quiet : ∀ (t : Nat) (x : Th) {s' : St} {e : Ev} {o : Out}, s'.cb = s.cb → s'.th = upd s.th t x → (∀ p cb, x ≠ .sweep p cb) →
      (∀ f, e ≠ .setDispose f) → (∀ t, e ≠ .clear t) → CbOK (tr ++ [(e, o)]) s' := by
    intro t x s' e o a b c d f
    refine keep a d f fun u p cb hh => ?_
    rw [b] at hh
    rcases upd_sweep hh with ⟨-, h⟩ | ⟨-, h⟩
    · exact absurd h (c _ _)
    · exact ⟨p, h⟩
  cases e with
  | register t d =>
    simp only [Recorder.step] at h
    split at h
    · split at h
      · cases h; exact quiet t _ rfl rfl (fun _ _ h => (by cases h)) (fun _ h => (by cases h)) (fun _ h => (by cases h))
      · cases h; exact keep rfl (fun _ h => (by cases h)) (fun _ h => (by cases h)) (fun u p cb hh => ⟨p, hh⟩)
    · cases h
  | new t p =>
    simp only [Recorder.step] at h
    split at h
    · cases h; exact quiet t _ rfl rfl (fun _ _ h => (by cases h)) (fun _ h => (by cases h)) (fun _ h => (by cases h))
    · cases h
  | load t =>
    simp only [Recorder.step] at h
    split at h
    · cases h; exact quiet t _ rfl rfl (fun _ _ h => (by cases h)) (fun _ h => (by cases h)) (fun _ h => (by cases h))
    · cases h
  | cas t b =>
    simp only [Recorder.step] at h
    split at h
    · split at h
      · cases h; exact quiet t _ rfl rfl (fun _ _ h => (by cases h)) (fun _ h => (by cases h)) (fun _ h => (by cases h))
      · cases h; exact keep rfl (fun _ h => (by cases h)) (fun _ h => (by cases h)) (fun u p cb hh => ⟨p, hh⟩)
    · cases h
  | unregister t p =>
    simp only [Recorder.step] at h
    split at h
    · cases h; exact quiet t _ rfl rfl (fun _ _ h => (by cases h)) (fun _ h => (by cases h)) (fun _ h => (by cases h))
    · cases h
  | bury t =>
    simp only [Recorder.step] at h
    split at h
    · cases h; exact quiet t _ rfl rfl (fun _ _ h => (by cases h)) (fun _ h => (by cases h)) (fun _ h => (by cases h))
    · cases h
  | setDispose f =>
    cases h
    refine ⟨by rw [callback_snoc], fun t p cb hh => ?_⟩
    obtain ⟨tr0, tr1, i1, i2⟩ := H.sw t p cb hh
    exact ⟨tr0, tr1 ++ [_], i1.snoc (fun h => (by cases h)), i2⟩
  | iterate t =>
    simp only [Recorder.step] at h
    split at h
    · cases h; exact quiet t _ rfl rfl (fun _ _ h => (by cases h)) (fun _ h => (by cases h)) (fun _ h => (by cases h))
    · cases h
  | visit t =>
    simp only [Recorder.step] at h
    split at h
    · split at h
      · cases h; exact quiet t _ rfl rfl (fun _ _ h => (by cases h)) (fun _ h => (by cases h)) (fun _ h => (by cases h))
      · split at h <;> cases h <;> exact quiet t _ rfl rfl (fun _ _ h => (by cases h)) (fun _ h => (by cases h)) (fun _ h => (by cases h))
    · cases h
  | clear t =>
    simp only [Recorder.step] at h
    split at h
    · cases h
      refine ⟨by rw [callback_snoc]; exact H.cb, fun u p cb hh => ?_⟩
      rcases upd_sweep hh with ⟨rfl, h⟩ | ⟨hut, h⟩
      · cases h
        exact ⟨tr, [(.clear u, .none)], ⟨rfl, rfl, fun x hx => (by cases hx)⟩, H.cb⟩
      · obtain ⟨tr0, tr1, i1, i2⟩ := H.sw u p cb h
        exact ⟨tr0, tr1 ++ [_], i1.snoc (fun h => by cases h; exact hut rfl), i2⟩
    · cases h
  | sweep t =>
    simp only [Recorder.step] at h
    split at h
    · rename_i p cb ht
      have keep' : ∀ {s' : St} {o : Out} {q : Nat}, s'.cb = s.cb → s'.th = upd s.th t (.sweep q cb) → CbOK (tr ++ [(.sweep t, o)]) s' := by
        intro s' o q a b
        refine keep a (fun _ h => (by cases h)) (fun _ h => (by cases h)) fun u p' cb' hh => ?_
        rw [b] at hh
        rcases upd_sweep hh with ⟨hut, h9⟩ | ⟨-, h9⟩
        · cases h9; exact ⟨p, by rw [hut]; exact ht⟩
        · exact ⟨p', h9⟩
      split at h
      · cases h; exact quiet t _ rfl rfl (fun _ _ h => (by cases h)) (fun _ h => (by cases h)) (fun _ h => (by cases h))
      · split at h <;> cases h
        · exact keep' rfl rfl
        · exact keep' rfl rfl
    · cases h

structure Full (tr : Trace) (s : St) (L D : List Nat) : Prop where
  inv : Inv tr s L D
  held : Held tr s L
  cb : CbOK tr s

theorem Run.full {tr : Trace} {s : St} (h : Run tr s) : ∃ L D, Full tr s L D := by
  induction h with
  | init =>
    exact ⟨[], [], Inv.init, ⟨fun p hp => (by cases hp), fun t p ⟨d, h⟩ => by rcases h with h | h <;> cases h⟩, ⟨rfl, fun t p cb h => (by cases h)⟩⟩
  | step _ hp hs ih =>
    obtain ⟨L, D, I⟩ := ih
    obtain ⟨L', D', I', hL⟩ := I.inv.step hp hs
    exact ⟨L', D', I', hL ▸ I.held.step hs, I.cb.step hs⟩

theorem Run.prefix {tr tr' : Trace} {s : St} (h : Run (tr ++ tr') s) : ∃ s', Run tr s' := by
  generalize hh : tr ++ tr' = w at h
  induction h generalizing tr' with
  | init => exact ⟨_, by rw [(List.append_eq_nil_iff.1 hh).1]; exact .init⟩
  | @step w s1 s2 e o h hp hs ih =>
    rcases List.eq_nil_or_concat tr' with rfl | ⟨l, x, rfl⟩
    · rw [List.append_nil] at hh
      exact ⟨s2, by rw [hh]; exact Run.step h hp hs⟩
    · rw [List.concat_eq_append, ← List.append_assoc] at hh
      exact ih (List.append_inj' hh rfl).1

end Verif.Recorder
