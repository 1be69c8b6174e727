import Verif.Filler.Pick
import Verif.Filler.Spec
import Verif.PageTracker.Props
/-! The filler's invariant. -/
namespace Verif.Filler
open Verif.Bitmap Verif.RangeTracker Verif.PageTracker Verif.HintedLists

variable {N : Nat} {mode : Bool}

/-! ### Facts about one tracker -/

theorem full_iff {t : PT} {live : List Alloc} (h : G N t live) : t.free.longestFree = N ↔ live = [] := by
  have hl := h.good.exact.longest
  constructor
  · intro e
    obtain ⟨i, hi⟩ := (hl N).2 (by omega)
    have hi0 : i = 0 := by have := hi.1; omega
    cases live with
    | nil => rfl
    | cons a L =>
      have hin : 0 < a.n ∧ a.i + a.n ≤ N := h.good.inside _ (List.mem_map.2 ⟨a, by simp, rfl⟩)
      have hu : t.Used a.i := (h.used_iff a.i).2 ⟨a, by simp, Nat.le_refl _, by omega⟩
      have := hi.2 a.i (by omega) (by omega)
      unfold PT.Used at hu
      rw [hu] at this; simp at this
  · rintro rfl
    have h1 : N ≤ t.free.longestFree := (hl N).1 ⟨0, by omega, fun j _ _ => by
      cases hb : bitAt t.free.bits j with
      | false => rfl
      | true =>
        obtain ⟨a, ha, _⟩ := (h.used_iff j).1 hb
        simp at ha⟩
    obtain ⟨i, hi⟩ := (hl t.free.longestFree).2 (by omega)
    have := hi.1
    omega

theorem longest_le {t : PT} {live : List Alloc} (h : G N t live) : t.free.longestFree ≤ N := by
  obtain ⟨i, hi⟩ := (h.good.exact.longest t.free.longestFree).2 (Nat.le_refl _)
  have := hi.1
  omega

theorem empty_counts {t : PT} (h : G N t []) : t.free.nused = 0 ∧ t.free.nallocs = 0 := by
  have := accounting_of h
  exact ⟨by rw [this.2.2.2.1]; rfl, by rw [this.2.2.2.2.1]; rfl⟩

theorem G.used_rel {t : PT} {live : List Alloc} (h : G N t live) : t.free.nused + t.relCount ≤ N :=
  (accounting_of h).2.2.2.2.2.2.2.1

theorem G.v {t : PT} {live : List Alloc} (h : G N t live) (hne : live ≠ []) : V N t := by
  obtain ⟨_, h2, _, h4, h5, _, _, h8, _⟩ := accounting_of h
  have hlt : t.free.longestFree ≠ N := fun e => hne ((full_iff h).1 e)
  have hle := longest_le h
  have hal : t.free.nallocs ≤ t.free.nused := h.good.allocs_le
  have hpos : 0 < live.length := by cases live with
    | nil => exact absurd rfl hne
    | cons a L => simp
  exact ⟨by omega, by omega, by omega, by omega⟩

theorem sum_ones {L : List Alloc} (h : ∀ a ∈ L, a.n = 1) : (L.map Alloc.n).sum = L.length := by
  induction L with
  | nil => rfl
  | cons a L ih =>
    rw [List.map_cons, List.sum_cons, ih (fun b hb => h b (by simp [hb])), h a (by simp), List.length_cons]; omega

theorem countP_full {p : Nat → Bool} : ∀ L : List Nat, L.countP p < L.length → ∃ x ∈ L, p x = false := by
  intro L
  induction L with
  | nil => simp
  | cons x L ih =>
    intro h
    rw [List.countP_cons, List.length_cons] at h
    cases hx : p x with
    | false => exact ⟨x, by simp, hx⟩
    | true =>
      rw [hx] at h
      obtain ⟨y, hy, e⟩ := ih (by simp at h; omega)
      exact ⟨y, by simp [hy], e⟩

theorem longest_pos {t : PT} {live : List Alloc} (h : G N t live) : 1 ≤ t.free.longestFree ↔ t.free.nused < N := by
  have hu := h.good.exact.used
  rw [← h.good.exact.longest 1]
  constructor
  · rintro ⟨i, hi⟩
    have hf := hi.2 i (Nat.le_refl _) (by omega)
    have hiN : i < N := by have := hi.1; omega
    have h1 : (List.range N).countP (bitAt t.free.bits) ≠ (List.range N).length := by
      intro e
      rw [List.countP_eq_length] at e
      have := e i (by simpa using hiN)
      rw [hf] at this; simp at this
    have h2 := List.countP_le_length (p := bitAt t.free.bits) (l := List.range N)
    rw [List.length_range] at h1 h2
    omega
  · intro hlt
    obtain ⟨x, hx, e⟩ := countP_full (p := bitAt t.free.bits) (List.range N) (by rw [List.length_range]; omega)
    refine ⟨x, by have := List.mem_range.1 hx; omega, ?_⟩
    intro j a b
    have : j = x := by omega
    rw [this]; exact e

theorem G.T {t : PT} {live : List Alloc} (h : G N t live) (hne : live ≠ [])
    (hone : t.dense = true → ∀ a ∈ live, a.n = 1) (hdon : t.donated = true → t.dense = false ∧ t.relCount = 0) :
    Filler.T N t := by
  refine { toV := G.v h hne, fit := ?_, don := hdon }
  intro hd
  have ac := accounting_of h
  rw [longest_pos h, ac.2.2.2.1, ac.2.2.2.2.1, sum_ones (hone hd)]

/-- Fields the tracker's own books do not depend on. -/
theorem G.flags {t t' : PT} {live : List Alloc} (h : G N t live) (h1 : t'.free = t.free) (h2 : t'.rel = t.rel)
    (h3 : t'.relCount = t.relCount) (h4 : t'.objects = t.objects) : G N t' live := by
  refine ⟨by rw [h1]; exact h.good, by rw [h2]; exact h.wf, by rw [h3, h2]; exact h.cnt, ?_, by rw [h4]; exact h.objs⟩
  intro j
  unfold PT.Rel PT.Used
  rw [h1, h2]
  exact h.free j

/-! ### The invariant -/

/-- The pins a treatment in progress has set. -/
def mask : Option (List Nat × List Nat) → Nat → Nat
  | none, _ => 0
  | some (A, B), id => (if id ∈ A then 1 else 0) + (if id ∈ B then 2 else 0)

def usedIn (tr : Nat → PT) (d : Bool) (id : Nat) : Nat := if (tr id).dense = d then (tr id).free.nused else 0
def relIn (tr : Nat → PT) (id : Nat) : Nat := (tr id).relCount
def wasIn (tr : Nat → PT) (d : Bool) (id : Nat) : Nat := if (tr id).wasReleased = true ∧ (tr id).dense = d then 1 else 0

/-- The flight's trackers. -/
def fl (g : Gh) : List Nat := g.flight.map Prod.fst

structure K (N : Nat) (mode : Bool) (s : F) (g : Gh) : Prop where
  li : LI N mode s.tr s.hl s.nUsedRel s.nUsedPart g.held
  nd : (g.held ++ (fl g ++ s.freed)).Nodup
  held : ∀ id, id ∈ g.held ↔ g.live id ≠ []
  gd : ∀ id, owned s g id → G N (s.tr id) (g.live id)
  one : ∀ id ∈ g.held, (s.tr id).dense = true → ∀ a ∈ g.live id, a.n = 1
  don : ∀ id ∈ g.held, (s.tr id).donated = true →
    (s.tr id).dense = false ∧ (s.tr id).relCount = 0 ∧ (s.tr id).free.nused < N
  size : s.size = g.held.length
  alloc : ∀ d, s.alloc d = sumOn (usedIn s.tr d) g.held
  unm : s.unmapped = sumOn (relIn s.tr) g.held
  was : ∀ d, s.nWas d = sumOn (wasIn s.tr d) (g.held ++ fl g)
  pins : ∀ id, owned s g id → (s.tr id).dontFree = mask g.treat id
  sel : ∀ A B, g.treat = some (A, B) → ∀ id, id ∈ A ∨ id ∈ B → owned s g id
  rest : ∀ x ∈ g.flight, (s.tr x.1).relCount + x.2 = N

theorem K.held_nd {s : F} {g : Gh} (h : K N mode s g) : g.held.Nodup := (List.nodup_append.1 h.nd).1

theorem K.g {s : F} {g : Gh} (h : K N mode s g) {id : Nat} (hid : id ∈ g.held) : G N (s.tr id) (g.live id) :=
  h.gd id (Or.inl hid)

theorem K.v {s : F} {g : Gh} (h : K N mode s g) {id : Nat} (hid : id ∈ g.held) : V N (s.tr id) :=
  G.v (h.g hid) ((h.held id).1 hid)

theorem K.t {s : F} {g : Gh} (h : K N mode s g) {id : Nat} (hid : id ∈ g.held) : T N (s.tr id) :=
  G.T (h.g hid) ((h.held id).1 hid) (h.one id hid) (fun hd => ⟨(h.don id hid hd).1, (h.don id hid hd).2.1⟩)

theorem K.flight_not_held {s : F} {g : Gh} (h : K N mode s g) {id : Nat} (hid : id ∈ fl g) : id ∉ g.held := by
  have := (List.nodup_append.1 h.nd).2.2
  intro hc
  exact this id hc id (by simp [hid]) rfl

theorem K.freed_not_held {s : F} {g : Gh} (h : K N mode s g) {id : Nat} (hid : id ∈ s.freed) : id ∉ g.held := by
  have := (List.nodup_append.1 h.nd).2.2
  intro hc
  exact this id hc id (by simp [hid]) rfl

theorem K.empty {s : F} {g : Gh} (h : K N mode s g) {id : Nat} (hid : id ∉ g.held) : g.live id = [] := by
  apply Classical.byContradiction
  intro hc
  exact hid ((h.held id).2 hc)

theorem K.init : K N mode (F.init N) Gh.init := by
  refine ⟨⟨List.nodup_nil, ?_, ?_, fun _ => rfl, fun _ => rfl⟩, List.nodup_nil, ?_, ?_, ?_, ?_, rfl, fun _ => rfl, rfl,
    fun _ => rfl, ?_, ?_, ?_⟩
  · intro k; exact inv_new
  · intro k i id
    constructor
    · intro hc
      have : id ∈ ([] : List Nat) := hc
      simp at this
    · rintro ⟨hc, _⟩
      have : id ∈ ([] : List Nat) := hc
      simp at this
  · intro id; simp [Gh.init]
  · rintro id (hc | hc | hc) <;> simp [Gh.init, F.init] at hc
  · intro id hid; simp [Gh.init] at hid
  · intro id hid; simp [Gh.init] at hid
  · rintro id (hc | hc | hc) <;> simp [Gh.init, F.init] at hc
  · intro A B e; simp [Gh.init] at e
  · intro x hx; simp [Gh.init] at hx

/-- One hugepage that stays held changes. -/
theorem K.modify {s s' : F} {g : Gh} (h : K N mode s g) {id : Nat} (hid : id ∈ g.held) {t' : PT} {live' : List Alloc}
    (htr : s'.tr = upd s.tr id t') (hfr : s'.freed = s.freed) (hsz : s'.size = s.size)
    (li : LI N mode s'.tr s'.hl s'.nUsedRel s'.nUsedPart g.held) (hG : G N t' live') (hne : live' ≠ [])
    (hd : t'.dense = (s.tr id).dense) (hone : t'.dense = true → ∀ a ∈ live', a.n = 1)
    (hdon : t'.donated = true → t'.dense = false ∧ t'.relCount = 0 ∧ t'.free.nused < N)
    (hpin : t'.dontFree = (s.tr id).dontFree)
    (ha : ∀ d, s'.alloc d + (if (s.tr id).dense = d then (s.tr id).free.nused else 0) =
      s.alloc d + (if (s.tr id).dense = d then t'.free.nused else 0))
    (hu : s'.unmapped + (s.tr id).relCount = s.unmapped + t'.relCount)
    (hw : ∀ d, s'.nWas d + (if (s.tr id).wasReleased = true ∧ (s.tr id).dense = d then 1 else 0) =
      s.nWas d + (if t'.wasReleased = true ∧ (s.tr id).dense = d then 1 else 0)) :
    K N mode s' { g with live := upd g.live id live' } := by
  have htid : s'.tr id = t' := by rw [htr]; simp [upd]
  have htne : ∀ x, x ≠ id → s'.tr x = s.tr x := fun x hx => by rw [htr]; exact upd_ne _ _ hx
  have hl : (upd g.live id live') id = live' := by simp [upd]
  have hlne : ∀ x, x ≠ id → (upd g.live id live') x = g.live x := fun x hx => upd_ne _ _ hx
  have how : ∀ x, owned s' { g with live := upd g.live id live' } x → owned s g x := by
    intro x hx; unfold owned at hx ⊢; rw [hfr] at hx; exact hx
  refine ⟨li, by rw [hfr]; exact h.nd, ?_, ?_, ?_, ?_, by rw [hsz]; exact h.size, ?_, ?_, ?_, ?_, ?_, ?_⟩
  · intro x
    by_cases hx : x = id
    · subst hx; simp only [hl]; exact ⟨fun _ => hne, fun _ => hid⟩
    · simp only [hlne x hx]; exact h.held x
  · intro x hx
    by_cases hxx : x = id
    · subst hxx; simp only [hl, htid]; exact hG
    · simp only [hlne x hxx, htne x hxx]; exact h.gd x (how x hx)
  · intro x hx
    by_cases hxx : x = id
    · subst hxx; simp only [hl, htid]; exact hone
    · simp only [hlne x hxx, htne x hxx]; exact h.one x hx
  · intro x hx
    by_cases hxx : x = id
    · subst hxx; simp only [htid]; exact hdon
    · simp only [htne x hxx]; exact h.don x hx
  · intro d
    have h1 := sumOn_upd (f := usedIn s.tr d) (g := usedIn s'.tr d) h.held_nd hid
      (fun y _ hy => by unfold usedIn; rw [htne y hy])
    have h2 := h.alloc d
    have h3 := ha d
    have h4 : usedIn s'.tr d id = if (s.tr id).dense = d then t'.free.nused else 0 := by
      unfold usedIn; rw [htid, hd]
    have h5 : usedIn s.tr d id = if (s.tr id).dense = d then (s.tr id).free.nused else 0 := rfl
    simp only []
    omega
  · have h1 := sumOn_upd (f := relIn s.tr) (g := relIn s'.tr) h.held_nd hid
      (fun y _ hy => by unfold relIn; rw [htne y hy])
    have h2 := h.unm
    have h4 : relIn s'.tr id = t'.relCount := by unfold relIn; rw [htid]
    have h5 : relIn s.tr id = (s.tr id).relCount := rfl
    simp only []
    omega
  · intro d
    have hnd : (g.held ++ fl g).Nodup := by
      have := h.nd
      rw [← List.append_assoc] at this
      exact (List.nodup_append.1 this).1
    have h1 := sumOn_upd (f := wasIn s.tr d) (g := wasIn s'.tr d) hnd (x := id) (by simp [hid])
      (fun y _ hy => by unfold wasIn; rw [htne y hy])
    have h2 := h.was d
    have h3 := hw d
    have h4 : wasIn s'.tr d id = if t'.wasReleased = true ∧ (s.tr id).dense = d then 1 else 0 := by
      unfold wasIn; rw [htid, hd]
    have h5 : wasIn s.tr d id = if (s.tr id).wasReleased = true ∧ (s.tr id).dense = d then 1 else 0 := rfl
    show s'.nWas d = sumOn (wasIn s'.tr d) (g.held ++ fl g)
    omega
  · intro x hx
    by_cases hxx : x = id
    · subst hxx; simp only [htid]; rw [hpin]; exact h.pins x (how x hx)
    · simp only [htne x hxx]; exact h.pins x (how x hx)
  · intro A B e x hx
    have := h.sel A B e x hx
    unfold owned at this ⊢
    rw [hfr]; exact this
  · intro x hx
    have hxx : x.1 ≠ id := by
      rintro rfl
      exact h.flight_not_held (List.mem_map.2 ⟨x, hx, rfl⟩) hid
    rw [htne _ hxx]
    exact h.rest x hx

theorem upd_upd {α β : Type} [DecidableEq α] (f : α → β) (a : α) (b c : β) : upd (upd f a b) a c = upd f a c := by
  funext x; unfold upd; split <;> rfl

/-- Putting a tracker that was taken off back on a list, with changed contents. -/
theorem readd {L : List Nat} {id : Nat} (hm : id ∈ L) (hnd : L.Nodup) {s : F} {tr : Nat → PT} {hl : LK → HL}
    {nr np : Bool → Nat} (h : LI N mode tr hl nr np (L.erase id)) {t : PT} (ht : s.tr = upd tr id t)
    (h1 : s.hl = hl) (h2 : s.nUsedRel = nr) (h3 : s.nUsedPart = np) (hv : V N t) :
    ∃ hl nr np, addTo N mode s id =
      some { s with tr := upd tr id { t with donated := false }, hl := hl, nUsedRel := nr, nUsedPart := np } ∧
      LI N mode (upd tr id { t with donated := false }) hl nr np L := by
  have hni : id ∉ L.erase id := hnd.not_mem_erase
  have hst : s.tr id = t := by rw [ht]; simp [upd]
  have hli : LI N mode s.tr s.hl s.nUsedRel s.nUsedPart (L.erase id) := by
    rw [h1, h2, h3, ht]
    exact h.congr (fun x hx => upd_ne _ _ (by rintro rfl; exact hni hx))
  obtain ⟨hl', nr', np', e, hl2⟩ := addTo_spec hli hni (by rw [hst]; exact hv)
  have htr : (s.setTr id { s.tr id with donated := false }).tr = upd tr id { t with donated := false } := by
    unfold F.setTr; simp only []; rw [hst, ht, upd_upd]
  refine ⟨hl', nr', np', ?_, ?_⟩
  · rw [e, ← htr]; rfl
  · rw [htr] at hl2
    exact hl2.perm (List.perm_cons_erase hm).symm

end Verif.Filler
