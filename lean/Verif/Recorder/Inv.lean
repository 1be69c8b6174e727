import Verif.Recorder.Spec
namespace Verif.Recorder

/-- Following `f` from `a` until `stop` meets `l`. -/
def Chain (f : Nat → Nat) (stop : Nat) : Nat → List Nat → Prop
  | a, [] => a = stop
  | a, p :: l => a = p ∧ p ≠ stop ∧ Chain f stop (f p) l

theorem Chain.congr {f g : Nat → Nat} {stop : Nat} : ∀ {l : List Nat} {a : Nat}, Chain f stop a l → (∀ p ∈ l, g p = f p) → Chain g stop a l
  | [], _, h, _ => h
  | p :: l, _, ⟨h1, h2, h3⟩, hg => ⟨h1, h2, by rw [hg p (List.mem_cons_self ..)]; exact h3.congr fun q hq => hg q (List.mem_cons_of_mem _ hq)⟩

theorem upd_same {α : Type} (f : Nat → α) (i : Nat) (v : α) : upd f i v i = v := if_pos rfl
theorem upd_ne {α : Type} (f : Nat → α) {i x : Nat} (v : α) (h : x ≠ i) : upd f i v x = f x := if_neg h

/-- `all_` is the list of all samples, the graveyard that of the dead ones. -/
structure Core (s : St) (L D : List Nat) : Prop where
  chL : Chain s.next 0 s.all L
  chD : Chain s.dead G (s.dead G) D
  ndL : L.Nodup
  ndD : D.Nodup
  okL : ∀ p ∈ L, p ≠ 0 ∧ p ≠ G ∧ p ∈ s.used
  sub : ∀ p ∈ D, p ∈ L
  dead : ∀ p ∈ L, s.dead p = 0 ↔ p ∉ D

/-- The sample a thread is about to publish or to bury. -/
def claim : Th → Option Nat
  | .made p _ => some p
  | .push p _ => some p
  | .dying p => some p
  | _ => none

def TOk (s : St) (L D : List Nat) : Th → Prop
  | .made p d => p ∈ s.used ∧ p ≠ 0 ∧ p ≠ G ∧ p ∉ L ∧ s.dead p = 0 ∧ s.data p = d
  | .push p d => p ∈ s.used ∧ p ≠ 0 ∧ p ≠ G ∧ p ∉ L ∧ s.dead p = 0 ∧ s.data p = d
  | .dying p => p ∈ L ∧ p ∉ D
  | _ => True

structure ThOK (s : St) (L D : List Nat) : Prop where
  ok : ∀ t, TOk s L D (s.th t)
  inj : ∀ t u p, claim (s.th t) = some p → claim (s.th u) = some p → t = u
  gl : ∀ t, s.gl = some t ↔ ∃ p cb, s.th t = .sweep p cb
  calm : s.gl ≠ none → ∀ t p, s.th t ≠ .dying p

structure TrOK (tr : Trace) (s : St) (L D : List Nat) : Prop where
  used : ∀ p, p ∈ s.used ↔ p ∈ made tr
  live : ∀ p d, (p, d) ∈ live tr ↔ p ∈ L ∧ p ∉ D ∧ s.data p = d
  nd : ((Recorder.live tr).map (·.1)).Nodup
  ending : ∀ p, ending p tr = true ↔ ∃ t, s.th t = .dying p
  clearing : clearing tr = s.gl.isSome

/-- `Iterate` has visited `V` and is yet to visit `R`. -/
structure IterAt (tr0 tr1 : Trace) (V R : List Nat) (out : List (Nat × Nat)) : Prop where
  ids : (out.map (·.1)).Sublist V
  compl : ∀ p d, (p, d) ∈ live tr0 → p ∈ V ++ R ∧ ((∀ x ∈ tr1, x.2.isBuried p = false) → p ∈ V → (p, d) ∈ out)
  sound : ∀ x ∈ out, ∃ k ≤ tr1.length, x ∈ live (tr0 ++ tr1.take k)

def ItAt (tr : Trace) (next : Nat → Nat) (L : List Nat) (t p : Nat) (out : List (Nat × Nat)) : Prop :=
  ∃ tr0 tr1 N V R, Since (.iterate t) tr tr0 tr1 ∧ L = N ++ (V ++ R) ∧ Chain next 0 p R ∧ IterAt tr0 tr1 V R out

def ItOK (tr : Trace) (s : St) (L : List Nat) : Prop := ∀ t p out, s.th t = .iter p out → ItAt tr s.next L t p out

/-- `UnregisterAll` has dealt with `V`; the samples in `N` are newer. -/
def SwAt (tr : Trace) (next data : Nat → Nat) (L D : List Nat) (t p : Nat) : Prop :=
  ∃ tr0 tr1 N V R, Since (.clear t) tr tr0 tr1 ∧ L = N ++ (V ++ R) ∧ Chain next 0 p R ∧
    (∀ q ∈ V, q ∈ D) ∧ ∀ q ∈ N, ∃ e u, (e, .registered u q (data q)) ∈ tr1

def SwOK (tr : Trace) (s : St) (L D : List Nat) : Prop := ∀ t p cb, s.th t = .sweep p cb → SwAt tr s.next s.data L D t p

structure Inv (tr : Trace) (s : St) (L D : List Nat) : Prop where
  core : Core s L D
  th : ThOK s L D
  trc : TrOK tr s L D
  it : ItOK tr s L
  sw : SwOK tr s L D

/-! ### Traces -/

theorem live_snoc (tr : Trace) (x : Ev × Out) : live (tr ++ [x]) = liveStep (live tr) x.2 := by
  unfold live; rw [List.foldl_append]; rfl

theorem ending_snoc (p : Nat) (tr : Trace) (x : Ev × Out) : ending p (tr ++ [x]) = endingStep p (ending p tr) x := by
  unfold ending; rw [List.foldl_append]; rfl

theorem made_snoc (tr : Trace) (x : Ev × Out) : made (tr ++ [x]) = made tr ++ made [x] := by
  unfold made; rw [List.filterMap_append]

theorem clearing_snoc (tr : Trace) (x : Ev × Out) : clearing (tr ++ [x]) =
    match x with
    | (.clear _, _) => true
    | (_, .cleared _) => false
    | _ => clearing tr := by
  unfold clearing; rw [List.foldl_append]; rfl

theorem mem_liveStep {l : List (Nat × Nat)} {o : Out} {x : Nat × Nat} (h : x ∈ l) (ho : o.isBuried x.1 = false) : x ∈ liveStep l o := by
  cases o with
  | registered => exact List.mem_cons_of_mem _ h
  | buried t p cb =>
    refine List.mem_filter.2 ⟨h, ?_⟩
    simp only [Out.isBuried, beq_eq_false_iff_ne] at ho
    simp only [bne_iff_ne]
    exact fun hh => ho hh.symm
  | _ => exact h

/-- What is registered stays so until it is unregistered. -/
theorem live_stay {tr0 : Trace} {x : Nat × Nat} (h : x ∈ live tr0) : ∀ {tr1 : Trace}, (∀ y ∈ tr1, y.2.isBuried x.1 = false) →
    x ∈ live (tr0 ++ tr1) := by
  intro tr1
  have : ∀ (tr1 : Trace) (l : List (Nat × Nat)), x ∈ l → (∀ y ∈ tr1, y.2.isBuried x.1 = false) →
      x ∈ tr1.foldl (fun l x => liveStep l x.2) l := by
    intro tr1
    induction tr1 with
    | nil => intro l h _; exact h
    | cons y ys ih => intro l h hy; exact ih _ (mem_liveStep h (hy y (List.mem_cons_self ..))) fun z hz => hy z (List.mem_cons_of_mem _ hz)
  intro hy
  unfold live; rw [List.foldl_append]
  exact this _ _ h hy

theorem Since.snoc {e : Ev} {tr tr0 tr1 : Trace} (h : Since e tr tr0 tr1) {x : Ev × Out} (hx : x.1 ≠ e) :
    Since e (tr ++ [x]) tr0 (tr1 ++ [x]) := by
  obtain ⟨h1, h2, h3⟩ := h
  cases tr1 with
  | nil => cases h2
  | cons y ys =>
    refine ⟨by rw [h1, List.append_assoc], h2, fun z hz => ?_⟩
    rcases List.mem_append.1 hz with hz | hz
    · exact h3 z hz
    · rw [List.mem_singleton.1 hz]; exact hx

theorem IterAt.snoc {tr0 tr1 : Trace} {V R : List Nat} {out : List (Nat × Nat)} (h : IterAt tr0 tr1 V R out) (x : Ev × Out) :
    IterAt tr0 (tr1 ++ [x]) V R out := by
  refine ⟨h.ids, fun p d hp => ?_, fun y hy => ?_⟩
  · obtain ⟨h1, h2⟩ := h.compl p d hp
    exact ⟨h1, fun hb => h2 fun z hz => hb z (List.mem_append_left _ hz)⟩
  · obtain ⟨k, hk, h1⟩ := h.sound y hy
    refine ⟨k, by rw [List.length_append]; omega, ?_⟩
    rw [List.take_append_of_le_length hk]; exact h1

/-- The iterations of other threads go on. -/
theorem ItAt.frame {tr : Trace} {next next' : Nat → Nat} {L : List Nat} {t p : Nat} {out : List (Nat × Nat)}
    (h : ItAt tr next L t p out) {x : Ev × Out} (P : List Nat) (hx : x.1 ≠ .iterate t) (hn : ∀ p ∈ L, next' p = next p) :
    ItAt (tr ++ [x]) next' (P ++ L) t p out := by
  obtain ⟨tr0, tr1, N, V, R, i1, i2, i3, i4⟩ := h
  refine ⟨tr0, tr1 ++ [x], P ++ N, V, R, i1.snoc hx, by rw [i2, List.append_assoc], i3.congr fun q hq => hn q ?_, i4.snoc x⟩
  rw [i2]; exact List.mem_append_right _ (List.mem_append_right _ hq)

theorem SwAt.frame {tr : Trace} {next next' data data' : Nat → Nat} {L D D' : List Nat} {t p : Nat}
    (h : SwAt tr next data L D t p) {x : Ev × Out} (P : List Nat) (hx : x.1 ≠ .clear t) (hn : ∀ p ∈ L, next' p = next p)
    (h3 : ∀ p ∈ L, data' p = data p) (h4 : ∀ p ∈ D, p ∈ D') (h5 : ∀ q ∈ P, ∃ u, x.2 = .registered u q (data' q)) :
    SwAt (tr ++ [x]) next' data' (P ++ L) D' t p := by
  obtain ⟨tr0, tr1, N, V, R, i1, i2, i3, i4, i5⟩ := h
  refine ⟨tr0, tr1 ++ [x], P ++ N, V, R, i1.snoc hx, by rw [i2, List.append_assoc], i3.congr fun q hq => hn q ?_,
    fun q hq => h4 q (i4 q hq), fun q hq => ?_⟩
  · rw [i2]; exact List.mem_append_right _ (List.mem_append_right _ hq)
  · rcases List.mem_append.1 hq with hq | hq
    · obtain ⟨u, hu⟩ := h5 q hq
      exact ⟨x.1, u, List.mem_append_right _ (by rw [← hu]; exact List.mem_singleton.2 rfl)⟩
    · obtain ⟨e, u, hu⟩ := i5 q hq
      rw [h3 q (by rw [i2]; exact List.mem_append_left _ hq)]
      exact ⟨e, u, List.mem_append_left _ hu⟩

/-! ### Threads -/

theorem TOk.notD {s : St} {L D : List Nat} (C : Core s L D) {x : Th} (h : TOk s L D x) {p : Nat} (hc : claim x = some p) : p ∉ D := by
  cases x <;> simp only [claim, Option.some.injEq, reduceCtorEq] at hc <;> subst hc
  · exact fun hh => h.2.2.2.1 (C.sub _ hh)
  · exact fun hh => h.2.2.2.1 (C.sub _ hh)
  · exact h.2

theorem TOk.used {s : St} {L D : List Nat} (C : Core s L D) {x : Th} (h : TOk s L D x) {p : Nat} (hc : claim x = some p) : p ∈ s.used := by
  cases x <;> simp only [claim, Option.some.injEq, reduceCtorEq] at hc <;> subst hc
  · exact h.1
  · exact h.1
  · exact (C.okL _ h.1).2.2

theorem TOk.frame {s s' : St} {L L' D D' : List Nat} {p0 : Nat}
    (hf : ∀ q, q ≠ p0 → (q ∈ s.used → q ∈ s'.used) ∧ (q ≠ G → s'.dead q = s.dead q ∧ s'.data q = s.data q) ∧ (q ∈ L' ↔ q ∈ L) ∧
      (q ∈ D' ↔ q ∈ D)) {x : Th} (hx : claim x ≠ some p0) (h : TOk s L D x) : TOk s' L' D' x := by
  cases x with
  | made p d =>
    obtain ⟨a, b, c, e⟩ := hf p fun hh => hx (by rw [hh]; rfl)
    obtain ⟨h1, h2, h3, h4, h5, h6⟩ := h
    exact ⟨a h1, h2, h3, fun hh => h4 (c.1 hh), (b h3).1.trans h5, (b h3).2.trans h6⟩
  | push p d =>
    obtain ⟨a, b, c, e⟩ := hf p fun hh => hx (by rw [hh]; rfl)
    obtain ⟨h1, h2, h3, h4, h5, h6⟩ := h
    exact ⟨a h1, h2, h3, fun hh => h4 (c.1 hh), (b h3).1.trans h5, (b h3).2.trans h6⟩
  | dying p =>
    obtain ⟨a, b, c, e⟩ := hf p fun hh => hx (by rw [hh]; rfl)
    exact ⟨c.2 h.1, fun hh => h.2 (e.1 hh)⟩
  | _ => trivial

/-- One thread moves on; it claims what it did before, or something no one claims. -/
theorem ThOK.upd {s s' : St} {L L' D D' : List Nat} (h : ThOK s L D) {t : Nat} {x : Th} {p0 : Nat} (hth : s'.th = upd s.th t x)
    (hf : ∀ q, q ≠ p0 → (q ∈ s.used → q ∈ s'.used) ∧ (q ≠ G → s'.dead q = s.dead q ∧ s'.data q = s.data q) ∧ (q ∈ L' ↔ q ∈ L) ∧
      (q ∈ D' ↔ q ∈ D)) (hx : TOk s' L' D' x) (hcl : ∀ p, claim x = some p → p = p0) (hno : ∀ u, u ≠ t → claim (s.th u) ≠ some p0)
    (hgl : ∀ u, s'.gl = some u ↔ ∃ p cb, s'.th u = .sweep p cb) (hcalm : s'.gl ≠ none → ∀ u p, s'.th u ≠ .dying p) : ThOK s' L' D' := by
  refine ⟨fun u => ?_, fun u w p hu hw => ?_, hgl, hcalm⟩
  · rw [hth]
    by_cases hu : u = t
    · rw [hu, upd_same]; exact hx
    · rw [upd_ne _ _ hu]; exact TOk.frame hf (hno u hu) (h.ok u)
  · rw [hth] at hu hw
    by_cases h1 : u = t <;> by_cases h2 : w = t
    · rw [h1, h2]
    · rw [h1, upd_same] at hu
      rw [upd_ne _ _ h2] at hw
      rw [hcl p hu] at hw
      exact absurd hw (hno w h2)
    · rw [h2, upd_same] at hw
      rw [upd_ne _ _ h1] at hu
      rw [hcl p hw] at hu
      exact absurd hu (hno u h1)
    · rw [upd_ne _ _ h1] at hu
      rw [upd_ne _ _ h2] at hw
      exact h.inj u w p hu hw

/-- For threads that neither start nor end a sweep. -/
theorem gl_upd {s : St} {L D : List Nat} (h : ThOK s L D) {t : Nat} {x : Th} (h1 : ∀ p cb, s.th t ≠ .sweep p cb) (h2 : ∀ p cb, x ≠ .sweep p cb) :
    ∀ u, s.gl = some u ↔ ∃ p cb, upd s.th t x u = .sweep p cb := by
  intro u
  rw [h.gl u]
  by_cases hu : u = t
  · rw [hu, upd_same]
    exact ⟨fun ⟨p, cb, h⟩ => absurd h (h1 p cb), fun ⟨p, cb, h⟩ => absurd h (h2 p cb)⟩
  · rw [upd_ne _ _ hu]

theorem calm_upd {s : St} {L D : List Nat} (h : ThOK s L D) {t : Nat} {x : Th} (h2 : ∀ p, x ≠ .dying p) :
    s.gl ≠ none → ∀ u p, upd s.th t x u ≠ .dying p := by
  intro hg u p
  by_cases hu : u = t
  · rw [hu, upd_same]; exact h2 p
  · rw [upd_ne _ _ hu]; exact h.calm hg u p

end Verif.Recorder
