import Verif.Filler.Put
/-! `ReleasePages` keeps the invariant and hands only free pages to the kernel. -/
namespace Verif.Filler
open Verif.Bitmap Verif.RangeTracker Verif.PageTracker Verif.HintedLists

variable {N : Nat} {mode : Bool}

/-! ### Changing a held hugepage in place -/

/-- Take a held hugepage off its list, change its contents (not its live runs), put it back. -/
theorem retouch {s : F} {g : Gh} (h : K N mode s g) {id : Nat} (hid : id ∈ g.held) :
    ∃ s1, removeFrom N mode s id = some s1 ∧ s1.tr = s.tr ∧ s1.unmapped = s.unmapped ∧ s1.unacc = s.unacc ∧
      ∀ (t' : PT) (u v : Nat), G N t' (g.live id) → t'.dense = (s.tr id).dense → t'.dontFree = (s.tr id).dontFree →
        t'.wasReleased = (s.tr id).wasReleased → t'.free = (s.tr id).free →
        u + (s.tr id).relCount = s.unmapped + t'.relCount →
        ∃ s2, addTo N mode { s1.setTr id t' with unmapped := u, unacc := v } id = some s2 ∧ K N mode s2 g ∧
          s2.tr = upd s.tr id { t' with donated := false } ∧ s2.freed = s.freed ∧ s2.unacc = v ∧ s2.unmapped = u ∧
          s2.nWas = s.nWas := by
  obtain ⟨hl1, nr1, np1, er, hli⟩ := removeFrom_spec h.li hid (h.v hid)
  refine ⟨_, er, rfl, rfl, rfl, ?_⟩
  intro t' u v hG h1 h2 h3 h4 h5
  have hne := (h.held id).1 hid
  obtain ⟨hl2, nr2, np2, e2, hli2⟩ := readd hid h.held_nd
    (s := { ({ s with hl := hl1, nUsedRel := nr1, nUsedPart := np1 } : F).setTr id t' with unmapped := u, unacc := v })
    (t := t') hli rfl rfl rfl rfl (G.v hG hne)
  refine ⟨_, e2, ?_, rfl, rfl, rfl, rfl, rfl⟩
  have := h.modify hid (t' := { t' with donated := false }) (live' := g.live id)
    (s' := { ({ ({ s with hl := hl1, nUsedRel := nr1, nUsedPart := np1 } : F).setTr id t' with unmapped := u, unacc := v } : F) with
      tr := upd s.tr id { t' with donated := false }, hl := hl2, nUsedRel := nr2, nUsedPart := np2 })
    rfl rfl rfl hli2 (G.flags hG rfl rfl rfl rfl) hne h1
    (fun hd => h.one id hid (h1 ▸ hd)) (fun hc => by simp at hc) h2
    (fun d => by
      show s.alloc d + _ = s.alloc d + (if (s.tr id).dense = d then t'.free.nused else 0)
      rw [h4]) h5
    (fun d => by
      show s.nWas d + _ = s.nWas d + (if t'.wasReleased = true ∧ (s.tr id).dense = d then 1 else 0)
      rw [h3])
  rw [upd_self] at this
  exact this

/-- Changing only `was_released` of a held hugepage. -/
theorem K.setWas {s : F} {g : Gh} (h : K N mode s g) {id : Nat} (hid : id ∈ g.held) (b : Bool) (nw : Bool → Nat)
    (hw : ∀ d, nw d + (if (s.tr id).wasReleased = true ∧ (s.tr id).dense = d then 1 else 0) =
      s.nWas d + (if b = true ∧ (s.tr id).dense = d then 1 else 0)) :
    K N mode { s.setTr id { s.tr id with wasReleased := b } with nWas := nw } g := by
  have := h.modify hid (t' := { s.tr id with wasReleased := b }) (live' := g.live id)
    (s' := { s.setTr id { s.tr id with wasReleased := b } with nWas := nw })
    rfl rfl rfl (h.li.congr' (fun x hx => by
      show place N mode ((s.setTr id _).tr x) = _ ∧ ((s.setTr id _).tr x).free.nused = _
      by_cases hxx : x = id
      · subst hxx; rw [setTr_same]; exact ⟨place_congr rfl rfl rfl rfl rfl, rfl⟩
      · rw [setTr_ne _ _ hxx]; exact ⟨rfl, rfl⟩)) (G.flags (h.g hid) rfl rfl rfl rfl) ((h.held id).1 hid) rfl
    (h.one id hid) (h.don id hid) rfl (fun d => rfl) rfl hw
  rw [upd_self] at this
  exact this

/-- Changing only `hugepage_backed` of a held hugepage. -/
theorem K.setBacked {s : F} {g : Gh} (h : K N mode s g) {id : Nat} (hid : id ∈ g.held) (b : Bool) :
    K N mode (s.setTr id { s.tr id with hugeBacked := b }) g := by
  have := h.modify hid (t' := { s.tr id with hugeBacked := b }) (live' := g.live id)
    (s' := s.setTr id { s.tr id with hugeBacked := b })
    rfl rfl rfl (h.li.congr' (fun x hx => by
      by_cases hxx : x = id
      · subst hxx; rw [setTr_same]; exact ⟨place_congr rfl rfl rfl rfl rfl, rfl⟩
      · rw [setTr_ne _ _ hxx]; exact ⟨rfl, rfl⟩)) (G.flags (h.g hid) rfl rfl rfl rfl) ((h.held id).1 hid) rfl
    (h.one id hid) (h.don id hid) rfl (fun d => rfl) rfl (fun d => rfl)
  rw [upd_self] at this
  exact this

/-! ### Calls of the kernel -/

theorem okSum_append (A B : List Call) : okSum (A ++ B) = okSum A + okSum B := by
  induction A with
  | nil => simp [okSum]
  | cons c A ih =>
    show _ + okSum (A ++ B) = (_ + okSum A) + okSum B
    rw [ih]; omega

theorem logSum_append (A B : Log) : logSum (A ++ B) = logSum A + logSum B := by
  unfold logSum; rw [List.map_append, okSum_append]

theorem logSum_map (id : Nat) (calls : List Call) : logSum (calls.map (fun c => (id, c))) = okSum calls := by
  unfold logSum; rw [List.map_map]
  have : (Prod.snd ∘ fun c : Call => (id, c)) = fun c => c := rfl
  rw [this, List.map_id']

/-- All pages of a hugepage are in use or released. -/
def Full (N : Nat) (t : PT) : Prop := freePages N t ≤ t.relCount

theorem releaseFree_calls {t : PT} {g : Gh} {id : Nat} {calls : List Call} (hid : id ∈ g.held) (hG : G N t (g.live id))
    (h1 : ∀ c ∈ calls, 0 < c.n ∧ c.i + c.n ≤ N)
    (h3 : ∀ j, (∃ c ∈ calls, c.Has j) ↔ j < N ∧ ¬ t.Used j ∧ ¬ t.Rel j) :
    ∀ x ∈ calls.map (fun c => (id, c)), CallOk N g x := by
  intro x hx
  obtain ⟨c, hc, rfl⟩ := List.mem_map.1 hx
  refine ⟨hid, (h1 c hc).1, (h1 c hc).2, ?_⟩
  intro a ha j hj haj
  exact ((h3 j).1 ⟨c, hc, hj⟩).2.1 ((hG.used_iff j).2 ⟨a, ha, haj⟩)

theorem inLog_append (A B : Log) (x j : Nat) : InLog (A ++ B) x j ↔ InLog A x j ∨ InLog B x j := by
  unfold InLog
  constructor
  · rintro ⟨c, h1, h2⟩
    rcases List.mem_append.1 h1 with h | h
    · exact Or.inl ⟨c, h, h2⟩
    · exact Or.inr ⟨c, h, h2⟩
  · rintro (⟨c, h1, h2⟩ | ⟨c, h1, h2⟩)
    · exact ⟨c, List.mem_append.2 (Or.inl h1), h2⟩
    · exact ⟨c, List.mem_append.2 (Or.inr h1), h2⟩

theorem inLog_nil (x j : Nat) : ¬ InLog [] x j := by rintro ⟨c, h, _⟩; simp at h

theorem inLog_map (id : Nat) (calls : List Call) (x j : Nat) :
    InLog (calls.map (fun c => (id, c))) x j ↔ x = id ∧ ∃ c ∈ calls, c.ok = true ∧ c.Has j := by
  unfold InLog
  constructor
  · rintro ⟨c, h1, h2⟩
    obtain ⟨c', hc', e⟩ := List.mem_map.1 h1
    simp only [Prod.mk.injEq] at e
    obtain ⟨rfl, rfl⟩ := e
    exact ⟨rfl, c', hc', h2⟩
  · rintro ⟨rfl, c, hc, h2⟩
    exact ⟨c, List.mem_map.2 ⟨c, hc, rfl⟩, h2⟩

/-- Runs never change; exactly the pages of successful calls become released pages. -/
structure Step (s s' : F) (log : Log) : Prop where
  free : ∀ x, (s'.tr x).free = (s.tr x).free ∧ (s'.tr x).loc = (s.tr x).loc
  freed : s'.freed = s.freed
  unacc : s'.unacc = s.unacc
  rel : ∀ x j, (s'.tr x).Rel j ↔ (s.tr x).Rel j ∨ InLog log x j
  unm : s'.unmapped = s.unmapped + logSum log

theorem Step.refl (s : F) : Step s s [] :=
  ⟨fun _ => ⟨rfl, rfl⟩, rfl, rfl, fun x j => ⟨Or.inl, fun h => h.resolve_right (inLog_nil x j)⟩, rfl⟩
theorem Step.trans {a b c : F} {l m : Log} (h1 : Step a b l) (h2 : Step b c m) : Step a c (l ++ m) :=
  ⟨fun x => ⟨(h2.free x).1.trans (h1.free x).1, (h2.free x).2.trans (h1.free x).2⟩, h2.freed.trans h1.freed,
    h2.unacc.trans h1.unacc, fun x j => by rw [h2.rel, h1.rel, inLog_append, or_assoc],
    by rw [h2.unm, h1.unm, logSum_append, Nat.add_assoc]⟩

def Same (N : Nat) (s s' : F) : Prop := ∀ x, s'.tr x = s.tr x ∨ Full N (s'.tr x)

theorem Same.refl (s : F) : Same N s s := fun _ => Or.inl rfl
theorem Same.trans {a b c : F} (h1 : Same N a b) (h2 : Same N b c) : Same N a c := by
  intro x
  rcases h2 x with e | e
  · rw [e]; exact h1 x
  · exact Or.inr e

theorem clearWas_spec {s : F} {g : Gh} (h : K N mode s g) {id : Nat} (hid : id ∈ g.held) :
    ∃ s', clearWas s id = some s' ∧ K N mode s' g ∧ s'.freed = s.freed ∧ s'.unacc = s.unacc ∧ s'.unmapped = s.unmapped ∧
      (∃ b, s'.tr = upd s.tr id { s.tr id with wasReleased := b }) := by
  unfold clearWas
  by_cases hw : (s.tr id).wasReleased = true ∧ (s.tr id).relCount > 0
  · rw [if_pos hw]
    have hle : 1 ≤ s.nWas (s.tr id).dense := by
      rw [h.was]
      have := sumOn_mem_le (f := wasIn s.tr (s.tr id).dense) (L := g.held ++ fl g) (x := id) (by simp [hid])
      have e : wasIn s.tr (s.tr id).dense id = 1 := by unfold wasIn; rw [if_pos ⟨hw.1, rfl⟩]
      omega
    rw [subCount_le hle]
    refine ⟨_, rfl, h.setWas hid false _ ?_, rfl, rfl, rfl, ⟨false, rfl⟩⟩
    intro d
    by_cases hd : d = (s.tr id).dense
    · rw [hd, upd_same, if_pos ⟨hw.1, rfl⟩]; simp; omega
    · rw [upd_ne _ _ hd, if_neg (fun hc => hd hc.2.symm)]; simp
  · rw [if_neg hw]
    refine ⟨s, rfl, h, rfl, rfl, rfl, (s.tr id).wasReleased, ?_⟩
    exact (upd_self s.tr id).symm

/-- One candidate. -/
theorem releaseOne_spec {s : F} {g : Gh} (h : K N mode s g) {id : Nat} (hid : id ∈ g.held) (ok : Nat → Bool) :
    ∃ s' calls, releaseOne N mode s id ok = some (s', okSum calls, calls) ∧ K N mode s' g ∧ Step s s' (calls.map (fun c => (id, c))) ∧
      (∀ x ∈ calls.map (fun c => (id, c)), CallOk N g x) ∧ (∀ x, x ≠ id → s'.tr x = s.tr x) ∧
      (s'.tr id).relCount = (s.tr id).relCount + okSum calls ∧
      ((∀ c ∈ calls, c.ok = true) → (s'.tr id).free.nused + (s'.tr id).relCount = N) := by
  obtain ⟨s1, e1, ht1, hu1, hv1, hadd⟩ := retouch h hid
  obtain ⟨t', calls, er, hG, h1, h2, h3, h4, h5, h6, r, c, u, gg, ht⟩ := releaseFree_spec (h.g hid) ok
  have hall := fun hok => releaseFree_all_of (h.g hid) er hok
  obtain ⟨s2, e2, hK2, htr2, hf2, hun2, hum2, hw2⟩ := hadd t' (s1.unmapped + okSum calls) s1.unacc hG (by rw [ht])
    (by rw [ht]) (by rw [ht]) (by rw [ht]) (by rw [hu1]; omega)
  have hfr : t'.free = (s.tr id).free := by rw [ht]
  have hloc : t'.loc = (s.tr id).loc := by rw [ht]
  obtain ⟨s3, e3, hK3, hf3, hun3, hum3, b, htr3⟩ := clearWas_spec hK2 hid
  unfold releaseOne
  rw [e1]
  simp only []
  rw [ht1, er]
  simp only []
  have hle : t'.relCount ≤ s1.unmapped + okSum calls := by
    have a1 := sumOn_mem_le (f := relIn s.tr) hid
    have a2 := h.unm
    have a3 : relIn s.tr id = (s.tr id).relCount := rfl
    omega
  rw [if_pos hle]
  have e2' : addTo N mode { s1.setTr id t' with unmapped := s1.unmapped + okSum calls } id = some s2 := e2
  rw [e2']
  simp only []
  rw [e3]
  have hid3 : s3.tr id = { t' with donated := false, wasReleased := b } := by
    rw [htr3, upd_same, htr2, upd_same]
  have hne3 : ∀ x, x ≠ id → s3.tr x = s.tr x := by
    intro x hx; rw [htr3, upd_ne _ _ hx, htr2, upd_ne _ _ hx]
  refine ⟨s3, calls, rfl, hK3, ⟨?_, by rw [hf3, hf2], by rw [hun3, hun2, hv1], ?_, ?_⟩, releaseFree_calls hid (h.g hid) h1 h3,
    hne3, ?_, ?_⟩
  · intro x
    by_cases hx : x = id
    · subst hx; rw [hid3]; exact ⟨hfr, hloc⟩
    · rw [hne3 x hx]; exact ⟨rfl, rfl⟩
  · intro x j
    rw [inLog_map]
    by_cases hx : x = id
    · subst hx
      rw [hid3]
      have := h4 j
      unfold PT.Rel at this ⊢
      simp only [true_and]
      exact this
    · rw [hne3 x hx]
      exact ⟨Or.inl, fun h => h.resolve_right (fun hc => hx hc.1)⟩
  · rw [logSum_map, hum3, hum2, hu1]
  · rw [hid3]; exact h6
  · intro hok; rw [hid3]; exact (hall hok).2

/-! ### The loop over the candidates -/

theorem releaseLoop_full {g : Gh} (target : Nat) (ok : Nat → Nat → Bool) : ∀ (L : List Nat) (s : F) (total last k : Nat)
    (log : Log), K N mode s g → L.Nodup → (∀ x ∈ L, x ∈ g.held ∧ (s.tr x).relCount < freePages N (s.tr x)) →
    L.Pairwise (fun a b => (s.tr a).free.nused ≤ (s.tr b).free.nused) → (∀ x ∈ L, last ≤ (s.tr x).free.nused) →
    ∃ s' k' log', releaseLoop N mode target ok L s total last k log = some (s', total + logSum log', k', log ++ log') ∧
      K N mode s' g ∧ Step s s' log' ∧ (∀ x ∈ log', CallOk N g x) ∧
      ((∀ x ∈ log', x.2.ok = true) → Same N s s' ∧ (L ≠ [] → total < target → 0 < logSum log')) ∧
      (L = [] → s' = s) := by
  intro L
  induction L with
  | nil =>
    intro s total last k log h _ _ _ _
    exact ⟨s, k, [], by unfold Filler.releaseLoop logSum; simp [okSum], h, Step.refl s, by simp,
      fun _ => ⟨Same.refl s, fun hc => absurd rfl hc⟩, fun _ => rfl⟩
  | cons id L ih =>
    intro s total last k log h hnd hc hs hl
    unfold Filler.releaseLoop
    by_cases ht : total < target
    · rw [if_pos ht]
      obtain ⟨hid, hrel⟩ := hc id (by simp)
      rw [if_pos ⟨by omega, hrel, hl id (by simp)⟩]
      obtain ⟨s1, calls, e, hK, hstep, hlog, hne, hrc, hfull⟩ := releaseOne_spec h hid (ok k)
      rw [e]
      simp only []
      rw [List.nodup_cons] at hnd
      rw [List.pairwise_cons] at hs
      have hxne : ∀ x ∈ L, x ≠ id := fun x hx e => hnd.1 (e ▸ hx)
      obtain ⟨s', k', log', e', a1, a2, a3, a4, _⟩ := ih s1 (total + okSum calls) (s.tr id).free.nused (k + 1)
        (log ++ calls.map (fun c => (id, c))) hK hnd.2
        (fun x hx => by rw [hne x (hxne x hx)]; exact hc x (List.mem_cons_of_mem _ hx))
        (hs.2.imp_of_mem (fun {a b} ha hb hab => by rw [hne a (hxne a ha), hne b (hxne b hb)]; exact hab))
        (fun x hx => by rw [hne x (hxne x hx)]; exact hs.1 x hx)
      refine ⟨s', k', calls.map (fun c => (id, c)) ++ log', ?_, a1, hstep.trans a2, ?_, ?_, fun hc => by simp at hc⟩
      · rw [e', logSum_append, logSum_map, Nat.add_assoc, List.append_assoc]
      · intro x hx
        rcases List.mem_append.1 hx with hx | hx
        · exact hlog x hx
        · exact a3 x hx
      · intro hok
        have hfull1 := hfull (fun c hc => hok (id, c) (by
          rw [List.mem_append]; left; exact List.mem_map.2 ⟨c, hc, rfl⟩))
        obtain ⟨b1, b2⟩ := a4 (fun x hx => hok x (by rw [List.mem_append]; exact Or.inr hx))
        refine ⟨Same.trans (b := s1) ?_ b1, ?_⟩
        · intro x
          by_cases hx : x = id
          · subst hx; right; unfold Full freePages; omega
          · exact Or.inl (hne x hx)
        · intro _ _
          rw [logSum_append, logSum_map]
          have : (s1.tr id).free = (s.tr id).free := (hstep.free id).1
          rw [this] at hfull1
          unfold freePages at hrel
          omega
    · rw [if_neg ht]
      exact ⟨s, k, [], by unfold logSum; simp [okSum], h, Step.refl s, by simp,
        fun _ => ⟨Same.refl s, fun _ hc => absurd hc ht⟩, fun _ => rfl⟩

theorem better_iff (a b : PT) : better a b = true ↔ a.free.nused < b.free.nused ∨
    (a.free.nused = b.free.nused ∧ a.dense = false ∧ b.dense = true) := by
  unfold better
  by_cases h1 : a.free.nused < b.free.nused
  · simp [h1]
  · by_cases h2 : a.free.nused > b.free.nused
    · rw [if_neg h1, if_pos h2]; simp; omega
    · have : a.free.nused = b.free.nused := by omega
      rw [if_neg h1, if_neg h2]
      cases a.dense <;> cases b.dense <;> simp [this]

theorem insertBy_perm (le : Nat → Nat → Bool) (x : Nat) (L : List Nat) : (insertBy le x L).Perm (x :: L) := by
  induction L with
  | nil => exact List.Perm.refl _
  | cons y L ih =>
    unfold insertBy
    split
    · exact List.Perm.refl _
    · exact (ih.cons y).trans (List.Perm.swap x y L)

theorem sortBy_perm (le : Nat → Nat → Bool) (L : List Nat) : (sortBy le L).Perm L := by
  induction L with
  | nil => exact List.Perm.refl _
  | cons x L ih => exact (insertBy_perm le x _).trans (ih.cons x)

theorem sortBy_sorted {le : Nat → Nat → Bool} (trans : ∀ a b c, le a b = true → le b c = true → le a c = true)
    (total : ∀ a b, (le a b || le b a) = true) (L : List Nat) : (sortBy le L).Pairwise (fun a b => le a b = true) := by
  induction L with
  | nil => exact List.Pairwise.nil
  | cons x L ih =>
    show (insertBy le x (sortBy le L)).Pairwise _
    generalize sortBy le L = M at ih
    induction M with
    | nil => simp [insertBy]
    | cons y M ihM =>
      rw [List.pairwise_cons] at ih
      unfold insertBy
      split
      · next h =>
        rw [List.pairwise_cons]
        refine ⟨?_, List.pairwise_cons.2 ih⟩
        intro z hz
        rcases List.mem_cons.1 hz with rfl | hz
        · exact h
        · exact trans _ _ _ h (ih.1 z hz)
      · next h =>
        rw [List.pairwise_cons]
        refine ⟨?_, ihM ih.2⟩
        intro z hz
        rcases List.mem_cons.1 ((insertBy_perm le x M).mem_iff.1 hz) with rfl | hz
        · have := total y z
          rw [Bool.or_eq_true] at this
          rcases this with h1 | h1
          · exact h1
          · exact absurd h1 h
        · exact ih.1 z hz

theorem sorted_cands (tr : Nat → PT) (L : List Nat) :
    (sortBy (fun a b => !better (tr b) (tr a)) L).Pairwise (fun a b => (tr a).free.nused ≤ (tr b).free.nused) := by
  have := sortBy_sorted (le := fun a b => !better (tr b) (tr a)) ?_ ?_ L
  · refine this.imp ?_
    intro a b hab
    have : ¬ better (tr b) (tr a) = true := by simpa using hab
    rw [better_iff] at this
    omega
  · intro a b c hab hbc
    have h1 : ¬ better (tr b) (tr a) = true := by simpa using hab
    have h2 : ¬ better (tr c) (tr b) = true := by simpa using hbc
    have h3 : ¬ better (tr c) (tr a) = true := by
      rw [better_iff] at h1 h2 ⊢
      intro hc
      rcases hc with hc | ⟨hc, d1, d2⟩
      · omega
      · have e1 : (tr b).free.nused = (tr a).free.nused := by omega
        have e2 : (tr c).free.nused = (tr b).free.nused := by omega
        cases hb : (tr b).dense
        · exact h1 (Or.inr ⟨e1, hb, d2⟩)
        · exact h2 (Or.inr ⟨e2, d1, hb⟩)
    simpa using h3
  · intro a b
    have : ¬ better (tr b) (tr a) = true ∨ ¬ better (tr a) (tr b) = true := by
      rw [better_iff, better_iff]
      by_cases h1 : (tr b).free.nused < (tr a).free.nused
      · right; omega
      · by_cases h2 : (tr a).free.nused < (tr b).free.nused
        · left; omega
        · by_cases h3 : (tr b).dense = false
          · right; rintro (hc | ⟨_, _, hc⟩)
            · omega
            · rw [h3] at hc; simp at hc
          · left; rintro (hc | ⟨_, hc, _⟩)
            · omega
            · exact h3 hc
    rcases this with h | h <;> simp [h]

/-! ### Rounds -/

/-- A selection function that picks distinct held hugepages with backed free pages. -/
def GoodSel (N : Nat) (mode : Bool) (g : Gh) (sel : F → Option (List Nat)) : Prop :=
  ∀ s, K N mode s g → ∃ c, sel s = some c ∧ c.Nodup ∧ ∀ x ∈ c, x ∈ g.held ∧ (s.tr x).relCount < freePages N (s.tr x)

theorem round_spec {g : Gh} {sel : F → Option (List Nat)} (hsel : GoodSel N mode g sel) {s : F} (h : K N mode s g)
    (want : Nat) (ok : Nat → Nat → Bool) (k : Nat) :
    ∃ s' k' log', round N mode sel s want ok k = some (s', logSum log', k', log') ∧
      K N mode s' g ∧ Step s s' log' ∧ (∀ x ∈ log', CallOk N g x) ∧
      ((∀ x ∈ log', x.2.ok = true) → Same N s s' ∧ (0 < want → logSum log' = 0 → sel s' = some [])) := by
  obtain ⟨c, e, hnd, hc⟩ := hsel s h
  unfold round releaseCandidates
  rw [e]
  simp only []
  have hp := sortBy_perm (fun a b => !better (s.tr b) (s.tr a)) c
  obtain ⟨s', k', log', e', a1, a2, a3, a4, a5⟩ := releaseLoop_full (g := g) want ok _ s 0 0 k [] h (hp.nodup_iff.2 hnd)
    (fun x hx => hc x (hp.mem_iff.1 hx)) (sorted_cands s.tr c) (fun _ _ => Nat.zero_le _)
  rw [Nat.zero_add, List.nil_append] at e'
  refine ⟨s', k', log', e', a1, a2, a3, ?_⟩
  intro hok
  obtain ⟨b1, b2⟩ := a4 hok
  refine ⟨b1, ?_⟩
  intro hw hz
  have hnil : sortBy (fun a b => !better (s.tr b) (s.tr a)) c = [] := by
    apply Classical.byContradiction
    intro hne
    have := b2 hne hw
    omega
  rw [hnil] at a5
  have hc0 : c = [] := by
    have := hp.length_eq
    rw [hnil] at this
    exact List.length_eq_zero_iff.1 this.symm
  rw [a5 rfl, e, hc0]

theorem rounds_spec {g : Gh} {sel : F → Option (List Nat)} (hsel : GoodSel N mode g sel) (desired : Nat)
    (ok : Nat → Nat → Bool) : ∀ (m : Nat) (s : F) (total k : Nat) (log : Log), desired - total ≤ m → K N mode s g →
    ∃ s' k' log', rounds N mode sel desired ok s total k log = some (s', total + logSum log', k', log ++ log') ∧
      K N mode s' g ∧ Step s s' log' ∧ (∀ x ∈ log', CallOk N g x) ∧
      ((∀ x ∈ log', x.2.ok = true) → Same N s s' ∧ (desired ≤ total + logSum log' ∨ sel s' = some [])) := by
  intro m
  induction m with
  | zero =>
    intro s total k log hm h
    rw [rounds, dif_neg (by omega)]
    exact ⟨s, k, [], by unfold logSum; simp [okSum], h, Step.refl s, by simp, fun _ => ⟨Same.refl s, Or.inl (by omega)⟩⟩
  | succ m ih =>
    intro s total k log hm h
    rw [rounds]
    by_cases ht : total < desired
    · rw [dif_pos ht]
      obtain ⟨s1, k1, log1, e, a1, a2, a3, a4⟩ := round_spec hsel h (desired - total) ok k
      rw [e]
      simp only []
      by_cases hz : logSum log1 = 0
      · rw [dif_pos hz]
        refine ⟨s1, k1, log1, by rw [hz, Nat.add_zero], a1, a2, a3, ?_⟩
        intro hok
        exact ⟨(a4 hok).1, Or.inr ((a4 hok).2 (by omega) hz)⟩
      · rw [dif_neg hz]
        obtain ⟨s2, k2, log2, e2, b1, b2, b3, b4⟩ := ih s1 (total + logSum log1) k1 (log ++ log1) (by omega) a1
        rw [e2]
        refine ⟨s2, k2, log1 ++ log2, by rw [logSum_append, Nat.add_assoc, List.append_assoc], b1, a2.trans b2, ?_, ?_⟩
        · intro x hx
          rcases List.mem_append.1 hx with hx | hx
          · exact a3 x hx
          · exact b3 x hx
        · intro hok
          have c1 := a4 (fun x hx => hok x (by simp [hx]))
          have c2 := b4 (fun x hx => hok x (by simp [hx]))
          refine ⟨c1.1.trans c2.1, ?_⟩
          rw [logSum_append]
          rcases c2.2 with hd | hd
          · left; omega
          · exact Or.inr hd
    · rw [dif_neg ht]
      exact ⟨s, k, [], by unfold logSum; simp [okSum], h, Step.refl s, by simp, fun _ => ⟨Same.refl s, Or.inl (by omega)⟩⟩

/-! ### Selecting candidates -/

theorem worst_mem (tr : Nat → PT) : ∀ (L : List Nat) (w : Nat), worst tr L w ∈ w :: L := by
  intro L
  induction L with
  | nil => intro w; simp [worst]
  | cons x L ih =>
    intro w
    unfold worst
    have := ih (if better (tr w) (tr x) then x else w)
    rcases List.mem_cons.1 this with e | e
    · rw [e]; split <;> simp
    · exact List.mem_cons_of_mem _ (List.mem_cons_of_mem _ e)

theorem pushCandidate_spec {tr : Nat → PT} {skip : Nat → Bool} {cap : Nat} (hcap : 0 < cap) {acc : List Nat} {id : Nat}
    (hnd : acc.Nodup) (hid : id ∉ acc) (hrel : (tr id).relCount < freePages N (tr id)) :
    ∃ acc', pushCandidate N tr skip cap acc id = some acc' ∧ acc'.Nodup ∧
      (∀ x ∈ acc', x ∈ acc ∨ (x = id ∧ skip id = false)) ∧ (acc ≠ [] ∨ skip id = false → acc' ≠ []) := by
  unfold pushCandidate
  rw [if_pos ⟨by omega, hrel⟩]
  cases hs : skip id with
  | true =>
    simp only [if_true]
    exact ⟨acc, rfl, hnd, fun x hx => Or.inl hx, by rintro (h | h); exact h; simp at h⟩
  | false =>
    simp only [Bool.false_eq_true, if_false]
    by_cases hl : acc.length < cap
    · rw [if_pos hl]
      refine ⟨_, rfl, ?_, ?_, fun _ => by simp⟩
      · rw [List.nodup_append]
        refine ⟨hnd, by simp, ?_⟩
        intro a ha b hb
        rw [List.mem_singleton] at hb
        subst hb
        rintro rfl; exact hid ha
      · intro x hx
        rcases List.mem_append.1 hx with hx | hx
        · exact Or.inl hx
        · rw [List.mem_singleton] at hx; exact Or.inr ⟨hx, trivial⟩
    · rw [if_neg hl]
      cases acc with
      | nil => simp at hl; omega
      | cons y L =>
        simp only []
        split
        · exact ⟨_, rfl, hnd, fun x hx => Or.inl hx, fun _ => by simp⟩
        · refine ⟨_, rfl, ?_, ?_, fun _ => by simp⟩
          · rw [List.nodup_append]
            refine ⟨hnd.erase _, by simp, ?_⟩
            intro a ha b hb
            rw [List.mem_singleton] at hb
            subst hb
            rintro rfl; exact hid (List.mem_of_mem_erase ha)
          · intro x hx
            rcases List.mem_append.1 hx with hx | hx
            · exact Or.inl (List.mem_of_mem_erase hx)
            · rw [List.mem_singleton] at hx; exact Or.inr ⟨hx, trivial⟩

theorem push_all {tr : Nat → PT} {skip : Nat → Bool} {cap : Nat} (hcap : 0 < cap) : ∀ (L acc : List Nat),
    acc.Nodup → L.Nodup → (∀ x ∈ L, x ∉ acc) → (∀ x ∈ L, (tr x).relCount < freePages N (tr x)) →
    ∃ acc', L.foldlM (pushCandidate N tr skip cap) acc = some acc' ∧ acc'.Nodup ∧
      (∀ x ∈ acc', x ∈ acc ∨ (x ∈ L ∧ skip x = false)) ∧ (acc ≠ [] ∨ (∃ x ∈ L, skip x = false) → acc' ≠ []) := by
  intro L
  induction L with
  | nil =>
    intro acc hnd _ _ _
    refine ⟨acc, rfl, hnd, fun x hx => Or.inl hx, ?_⟩
    rintro (h | ⟨x, hx, _⟩)
    · exact h
    · simp at hx
  | cons id L ih =>
    intro acc hnd hL hdis hrel
    rw [List.nodup_cons] at hL
    obtain ⟨acc1, e1, a1, a2, a3⟩ := pushCandidate_spec (skip := skip) hcap hnd (hdis id (by simp)) (hrel id (by simp))
    obtain ⟨acc2, e2, b1, b2, b3⟩ := ih acc1 a1 hL.2 (by
      intro x hx hc
      rcases a2 x hc with hc | ⟨rfl, _⟩
      · exact hdis x (List.mem_cons_of_mem _ hx) hc
      · exact hL.1 hx) (fun x hx => hrel x (List.mem_cons_of_mem _ hx))
    refine ⟨acc2, ?_, b1, ?_, ?_⟩
    · rw [List.foldlM_cons, e1]; exact e2
    · intro x hx
      rcases b2 x hx with hx | ⟨hx, hs⟩
      · rcases a2 x hx with hx | ⟨rfl, hs⟩
        · exact Or.inl hx
        · exact Or.inr ⟨by simp, hs⟩
      · exact Or.inr ⟨List.mem_cons_of_mem _ hx, hs⟩
    · rintro (h | ⟨x, hx, hs⟩)
      · exact b3 (Or.inl (a3 (Or.inl h)))
      · rcases List.mem_cons.1 hx with rfl | hx
        · exact b3 (Or.inl (a3 (Or.inr hs)))
        · exact b3 (Or.inr ⟨x, hx, hs⟩)

theorem mem_elems {lists : Nat → List Nat} {a n x : Nat} :
    x ∈ elems lists a n ↔ ∃ i, a ≤ i ∧ i < a + n ∧ x ∈ lists i := by
  unfold elems
  rw [List.mem_flatMap]
  constructor
  · rintro ⟨i, hi, hx⟩
    rw [List.mem_range'_1] at hi
    exact ⟨i, hi.1, hi.2, hx⟩
  · rintro ⟨i, h1, h2, hx⟩
    exact ⟨i, by rw [List.mem_range'_1]; exact ⟨h1, h2⟩, hx⟩

theorem elems_nodup {M : Nat} {h : HL} (hi : Inv M h) : ∀ (n a : Nat), (elems h.lists a n).Nodup := by
  intro n
  induction n with
  | zero => intro a; exact List.nodup_nil
  | succ n ih =>
    intro a
    have e : elems h.lists a (n + 1) = h.lists a ++ elems h.lists (a + 1) n := by
      unfold elems; rw [List.range'_succ, List.flatMap_cons]
    rw [e, List.nodup_append]
    refine ⟨hi.nodup a, ih (a + 1), ?_⟩
    intro x hx y hy
    rintro rfl
    obtain ⟨i, h1, _, h3⟩ := mem_elems.1 hy
    exact hi.disj a i (by omega) x hx h3

/-- The kind of list a hugepage is on. -/
abbrev kd (N : Nat) (mode : Bool) (t : PT) : LK := (place N mode t).1

structure Sel (N : Nat) (mode : Bool) (s : F) (g : Gh) (skip : Nat → Bool) (ks : List LK) (acc : List Nat) : Prop where
  nodup : acc.Nodup
  ok : ∀ x ∈ acc, x ∈ g.held ∧ (s.tr x).relCount < freePages N (s.tr x) ∧ kd N mode (s.tr x) ∈ ks ∧ skip x = false

theorem Sel.nil {s : F} {g : Gh} {skip : Nat → Bool} : Sel N mode s g skip [] [] := ⟨List.nodup_nil, by simp⟩

theorem select_spec {s : F} {g : Gh} (h : K N mode s g) {skip : Nat → Bool} {ks : List LK} {acc : List Nat}
    (ha : Sel N mode s g skip ks acc) {k : LK} (hk : k ∉ ks) {start : Nat} (hst : start < nLists N k) (hN : 0 < N)
    (hrel : ∀ id ∈ g.held, ∀ i, place N mode (s.tr id) = (k, i) → start ≤ i → (s.tr id).relCount < freePages N (s.tr id)) :
    ∃ acc', selectCandidates N s skip k start acc = some acc' ∧ Sel N mode s g skip (k :: ks) acc' ∧
      (acc ≠ [] ∨ (∃ id ∈ g.held, ∃ i, place N mode (s.tr id) = (k, i) ∧ start ≤ i ∧ skip id = false) → acc' ≠ []) := by
  unfold selectCandidates
  rw [iter_inv (h.li.inv k) start hst]
  simp only []
  have hmem : ∀ x, x ∈ elems (s.hl k).lists start (nLists N k - start) ↔
      ∃ i, start ≤ i ∧ i < nLists N k ∧ x ∈ g.held ∧ place N mode (s.tr x) = (k, i) := by
    intro x
    rw [mem_elems]
    constructor
    · rintro ⟨i, h1, h2, h3⟩
      exact ⟨i, h1, by omega, (h.li.mem k i x).1 h3⟩
    · rintro ⟨i, h1, h2, h3⟩
      exact ⟨i, h1, by omega, (h.li.mem k i x).2 h3⟩
  obtain ⟨acc', e, a1, a2, a3⟩ := push_all (N := N) (tr := s.tr) (skip := skip) (cap := N) hN _ acc ha.nodup
    (elems_nodup (h.li.inv k) _ _) (by
      intro x hx hc
      obtain ⟨i, _, _, _, hp⟩ := (hmem x).1 hx
      have := (ha.ok x hc).2.2.1
      unfold kd at this
      rw [hp] at this
      exact hk this) (by
      intro x hx
      obtain ⟨i, h1, _, h3, hp⟩ := (hmem x).1 hx
      exact hrel x h3 i hp h1)
  refine ⟨acc', e, ⟨a1, ?_⟩, ?_⟩
  · intro x hx
    rcases a2 x hx with hx | ⟨hx, hs⟩
    · obtain ⟨b1, b2, b3, b4⟩ := ha.ok x hx
      exact ⟨b1, b2, List.mem_cons_of_mem _ b3, b4⟩
    · obtain ⟨i, h1, _, h3, hp⟩ := (hmem x).1 hx
      exact ⟨h3, hrel x h3 i hp h1, by unfold kd; rw [hp]; exact List.mem_cons_self, hs⟩
  · rintro (hc | ⟨id, hid, i, hp, hi, hs⟩)
    · exact a3 (Or.inl hc)
    · refine a3 (Or.inr ⟨id, (hmem id).2 ⟨i, hi, ?_, hid, hp⟩, hs⟩)
      have := place_lt (N := N) (mode := mode) (h.v hid)
      rw [hp] at this; exact this

theorem nd_of_kd {t : PT} (hk : kd N mode t ≠ .donated) : t.donated = false := by
  cases hd : t.donated with
  | false => rfl
  | true => exact absurd ((place_donated_iff (N := N) (mode := mode) t).2 hd) hk

theorem place_of_nd {t : PT} (hd : t.donated = false) : place N mode t = (kindOf N mode t, idxOf N t) := by
  unfold place; rw [hd]; simp

/-- A hugepage with a free page is on a list the selection looks at. -/
theorem idx_ge {t : PT} {live : List Alloc} (hG : G N t live) (hT : T N t) : 8 ≤ idxOf N t ↔ t.free.nused < N := by
  have h2 := longest_pos hG
  have h3 := idx_fits hT (n := 1) (dense := t.dense) rfl (fun _ => rfl)
  have h4 : leastIdx 1 t.dense = 8 := by unfold leastIdx; split <;> rfl
  rw [h4] at h3
  rw [h3, h2]

theorem whole_of_kind {t : PT} {d : Bool} (h : kindOf N mode t = .regular d) : t.relCount = 0 := by
  unfold kindOf at h
  split at h
  · next hc => exact hc.1
  · split at h <;> simp at h

theorem partial_of_kind {t : PT} {d : Bool} (h : kindOf N mode t = .partialRel d) : t.relCount < freePages N t := by
  unfold kindOf at h
  split at h
  · simp at h
  · split at h
    · simp at h
    · omega

theorem candsPartial_spec {s : F} {g : Gh} (h : K N mode s g) (skip : Nat → Bool) (hN : 2 ≤ N) :
    ∃ c, candsPartial N s skip = some c ∧ c.Nodup ∧
      (∀ x ∈ c, x ∈ g.held ∧ (s.tr x).relCount < freePages N (s.tr x)) ∧
      (c = [] → ∀ id ∈ g.held, skip id = false → ∀ d, kd N mode (s.tr id) ≠ .partialRel d) := by
  have hrel : ∀ d, ∀ id ∈ g.held, ∀ i, place N mode (s.tr id) = (.partialRel d, i) → kChunks ≤ i →
      (s.tr id).relCount < freePages N (s.tr id) := by
    intro d id _ i hp _
    exact partial_of_kind (place_nd hp (by simp)).2.1
  have hst : ∀ d, kChunks < nLists N (.partialRel d) := by intro d; unfold kChunks; show 8 < N * 8; omega
  obtain ⟨c1, e1, a1, a2⟩ := select_spec h (Sel.nil (skip := skip)) (k := .partialRel false) (by simp) (hst _) (by omega) (hrel _)
  obtain ⟨c2, e2, b1, b2⟩ := select_spec h a1 (k := .partialRel true) (by simp) (hst _) (by omega) (hrel _)
  refine ⟨c2, by unfold candsPartial; rw [e1]; exact e2, b1.nodup, fun x hx => ⟨(b1.ok x hx).1, (b1.ok x hx).2.1⟩, ?_⟩
  intro hc id hid hs d hk
  have hp : place N mode (s.tr id) = (.partialRel d, (place N mode (s.tr id)).2) := by rw [← hk]
  obtain ⟨p1, p2, p3⟩ := place_nd hp (by simp)
  have hi : kChunks ≤ (place N mode (s.tr id)).2 := by
    rw [← p3]
    have h1 := partial_of_kind p2
    have := (idx_ge (h.g hid) (h.t hid)).2 (by unfold freePages at h1; omega)
    exact this
  cases d with
  | false =>
    exact b2 (Or.inl (a2 (Or.inr ⟨id, hid, _, hp, hi, hs⟩))) hc
  | true => exact b2 (Or.inr ⟨id, hid, _, hp, hi, hs⟩) hc

theorem candsWhole_spec {s : F} {g : Gh} (h : K N mode s g) (skip : Nat → Bool) (hN : 2 ≤ N) :
    ∃ c, candsWhole N s skip = some c ∧ c.Nodup ∧
      (∀ x ∈ c, x ∈ g.held ∧ (s.tr x).relCount < freePages N (s.tr x)) ∧
      (c = [] → ∀ id ∈ g.held, skip id = false → (s.tr id).free.nused < N →
        kd N mode (s.tr id) ≠ .donated ∧ ∀ d, kd N mode (s.tr id) ≠ .regular d) := by
  have hrel : ∀ d, ∀ id ∈ g.held, ∀ i, place N mode (s.tr id) = (.regular d, i) → kChunks ≤ i →
      (s.tr id).relCount < freePages N (s.tr id) := by
    intro d id hid i hp hi
    obtain ⟨_, p2, p3⟩ := place_nd hp (by simp)
    have h1 := whole_of_kind p2
    have := (idx_ge (h.g hid) (h.t hid)).1 (by rw [p3]; exact hi)
    unfold freePages
    omega
  have hreld : ∀ id ∈ g.held, ∀ i, place N mode (s.tr id) = (.donated, i) → 0 ≤ i →
      (s.tr id).relCount < freePages N (s.tr id) := by
    intro id hid i hp _
    have hd := (place_donated_iff (N := N) (mode := mode) (s.tr id)).1 (by rw [hp])
    obtain ⟨_, d2, d3⟩ := h.don id hid hd
    unfold freePages
    omega
  have hst : ∀ d, kChunks < nLists N (.regular d) := by intro d; unfold kChunks; show 8 < N * 8; omega
  obtain ⟨c1, e1, a1, a2⟩ := select_spec h (Sel.nil (skip := skip)) (k := .regular false) (by simp) (hst _) (by omega) (hrel _)
  obtain ⟨c2, e2, b1, b2⟩ := select_spec h a1 (k := .regular true) (by simp) (hst _) (by omega) (hrel _)
  obtain ⟨c3, e3, d1, d2⟩ := select_spec h b1 (k := .donated) (start := 0) (by simp) (by show 0 < N; omega) (by omega) hreld
  refine ⟨c3, by unfold candsWhole; rw [e1]; simp only []; rw [e2]; exact e3, d1.nodup,
    fun x hx => ⟨(d1.ok x hx).1, (d1.ok x hx).2.1⟩, ?_⟩
  intro hc id hid hs hlt
  refine ⟨?_, ?_⟩
  · intro hk
    have hp : place N mode (s.tr id) = (.donated, (place N mode (s.tr id)).2) := by rw [← hk]
    exact d2 (Or.inr ⟨id, hid, _, hp, Nat.zero_le _, hs⟩) hc
  · intro d hk
    have hp : place N mode (s.tr id) = (.regular d, (place N mode (s.tr id)).2) := by rw [← hk]
    obtain ⟨p1, p2, p3⟩ := place_nd hp (by simp)
    have hi : kChunks ≤ (place N mode (s.tr id)).2 := by
      rw [← p3]; exact (idx_ge (h.g hid) (h.t hid)).2 hlt
    cases d with
    | false => exact d2 (Or.inl (b2 (Or.inl (a2 (Or.inr ⟨id, hid, _, hp, hi, hs⟩))))) hc
    | true => exact d2 (Or.inl (b2 (Or.inr ⟨id, hid, _, hp, hi, hs⟩))) hc

/-- Everything about `ReleasePages`. -/
theorem releasePages_spec {s : F} {g : Gh} (h : K N mode s g) (hN : 2 ≤ N) (desired : Nat) (adjusted : Option Nat)
    (skip : Nat → Bool) (ok : Nat → Nat → Bool) :
    ∃ s' log, releasePages N mode s desired adjusted skip ok = some (s', s.unacc + logSum log, log) ∧ K N mode s' g ∧
      (∀ x ∈ log, CallOk N g x) ∧ s'.unacc = 0 ∧ Step { s with unacc := 0 } s' log ∧
      ((∀ x ∈ log, x.2.ok = true) →
        desired ≤ s.unacc + logSum log ∨ goal desired adjusted ≤ s.unacc + logSum log ∨
        ∀ id ∈ g.held, skip id = false → (s'.tr id).free.nused + (s'.tr id).relCount = N) := by
  have h0 := h.unacc 0
  unfold releasePages
  simp only []
  by_cases h1 : desired ≤ s.unacc
  · rw [if_pos h1]
    exact ⟨_, [], rfl, h0, by simp, rfl, Step.refl _, fun _ => Or.inl (by omega)⟩
  · rw [if_neg h1]
    by_cases h2 : goal desired adjusted ≤ s.unacc
    · rw [if_pos h2]
      exact ⟨_, [], rfl, h0, by simp, rfl, Step.refl _, fun _ => Or.inr (Or.inl (by omega))⟩
    · rw [if_neg h2]
      have hs1 : GoodSel N mode g (fun s => candsPartial N s skip) := by
        intro s' h'
        obtain ⟨c, e, a, b, _⟩ := candsPartial_spec h' skip hN
        exact ⟨c, e, a, b⟩
      have hs2 : GoodSel N mode g (fun s => candsWhole N s skip) := by
        intro s' h'
        obtain ⟨c, e, a, b, _⟩ := candsWhole_spec h' skip hN
        exact ⟨c, e, a, b⟩
      obtain ⟨s2, k2, log2, e2, a1, a2, a3, a4⟩ := rounds_spec hs1 (goal desired adjusted) ok _ _ s.unacc 0 [] (Nat.le_refl _) h0
      rw [e2]
      simp only []
      obtain ⟨s3, k3, log3, e3, b1, b2, b3, b4⟩ := rounds_spec hs2 (goal desired adjusted) ok _ _ (s.unacc + logSum log2) k2
        ([] ++ log2) (Nat.le_refl _) a1
      rw [e3]
      refine ⟨s3, log2 ++ log3, ?_, b1, ?_, ?_, ?_, ?_⟩
      · rw [logSum_append, List.nil_append, Nat.add_assoc]
      · intro x hx
        rcases List.mem_append.1 hx with hx | hx
        · exact a3 x hx
        · exact b3 x hx
      · rw [b2.unacc, a2.unacc]
      · exact a2.trans b2
      · intro hok
        obtain ⟨_, c2⟩ := a4 (fun x hx => hok x (by simp [hx]))
        obtain ⟨d1, d2⟩ := b4 (fun x hx => hok x (by simp [hx]))
        rw [logSum_append]
        rcases c2 with c2 | c2
        · right; left; omega
        rcases d2 with d2 | d2
        · right; left; omega
        right; right
        intro id hid hs
        obtain ⟨c, ec, _, _, hc⟩ := candsPartial_spec a1 skip hN
        rw [ec] at c2
        have hc0 := hc (by simpa using c2) id hid hs
        obtain ⟨w, ew, _, _, hw⟩ := candsWhole_spec b1 skip hN
        rw [ew] at d2
        have hw0 := hw (by simpa using d2) id hid hs
        have hle := G.used_rel (b1.g hid)
        apply Classical.byContradiction
        intro hne
        have hlt : (s3.tr id).free.nused < N := by omega
        obtain ⟨w1, w2⟩ := hw0 hlt
        have hnd := nd_of_kd w1
        have hp := place_of_nd (N := N) (mode := mode) hnd
        have hk : kindOf N mode (s3.tr id) = kd N mode (s3.tr id) := by unfold kd; rw [hp]
        have hcases : kindOf N mode (s3.tr id) = .partialRel (s3.tr id).dense := by
          unfold kindOf at hk ⊢
          split
          · next hr => rw [if_pos hr] at hk; exact absurd hk.symm (w2 _)
          · split
            · next _ hr => unfold freePages at hr; omega
            · rfl
        rcases d1 id with e | e
        · rw [e] at hk hcases
          rw [hk] at hcases
          exact hc0 _ hcases
        · unfold Full freePages at e; omega

end Verif.Filler
