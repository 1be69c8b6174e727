import Verif.Treatment.Lemmas
import Verif.Filler.Props
/-! Which hugepages the selection goes through. -/
namespace Verif.Treatment
open Verif.Bitmap Verif.RangeTracker Verif.PageTracker Verif.HintedLists Verif.Filler

variable {N : Nat} {mode : Bool}

def kinds : List LK :=
  [.partialRel false, .partialRel true, .donated, .regular true, .regular false, .released false, .released true]

def flags (mode : Bool) : LK → Bool × Bool
  | .donated => (false, true)
  | .released _ => (true, mode)
  | _ => (true, true)

theorem flags_eq (t : PT) : flags mode (kd N mode t) = (!t.donated, mode || !fullyReleased N mode t) := by
  unfold fullyReleased kd place kindOf freePages
  cases hd : t.donated with
  | true => simp [flags]
  | false =>
    by_cases h1 : t.relCount = 0 ∧ (t.unbroken = true ∨ mode = false)
    · obtain ⟨h1, h2⟩ := h1
      rcases h2 with h2 | h2 <;> simp [h1, h2, flags]
    · have hw : (t.relCount == 0 && (t.unbroken || !mode)) = false := by
        rw [Bool.eq_false_iff]
        intro hc
        apply h1
        simpa using hc
      simp only [Bool.false_eq_true, if_false]
      rw [if_neg (by simpa using h1), hw]
      by_cases h2 : N - t.free.nused ≤ t.relCount
      · rw [if_pos h2]
        have : N ≤ t.free.nused + t.relCount := by omega
        simp [flags, this]
      · rw [if_neg h2]
        have : ¬ N ≤ t.free.nused + t.relCount := by omega
        simp [flags, this]

theorem visits_spec (hN : 2 ≤ N) {s : F} {g : Gh} (h : K N mode s g) : ∃ L, visits N mode s = some L ∧
    (L.map Prod.fst).Nodup ∧ ∀ v, v ∈ L ↔ v.1 ∈ g.held ∧ v.2.1 = !(s.tr v.1).donated ∧ v.2.2 = (mode || !fullyReleased N mode (s.tr v.1)) := by
  have hst : ∀ k, 0 < nLists N k := by intro k; cases k <;> simp [nLists, kChunks] <;> omega
  let E : LK → List Nat := fun k => elems (s.hl k).lists 0 (nLists N k - 0)
  have hE : ∀ k x, x ∈ E k ↔ x ∈ g.held ∧ kd N mode (s.tr x) = k := by
    intro k x
    have := (on_kind h k 0).mem_iff (a := x)
    show x ∈ elems _ _ _ ↔ _
    rw [this, List.mem_filter, decide_eq_true_eq]
    simp
  have e : visits N mode s = some (kinds.flatMap (fun k => (E k).map (fun x => (x, flags mode k)))) := by
    unfold visits
    rw [iter_kind h _ (hst _), iter_kind h _ (hst _), iter_kind h _ (hst _), iter_kind h _ (hst _), iter_kind h _ (hst _),
      iter_kind h _ (hst _), iter_kind h _ (hst _)]
    simp [kinds, flags, E]
  refine ⟨_, e, ?_, ?_⟩
  · rw [List.map_flatMap]
    have e2 : (fun a => List.map Prod.fst ((E a).map (fun x => (x, flags mode a)))) = E := by
      funext a
      rw [List.map_map]
      exact List.map_id' _
    rw [e2]
    unfold List.Nodup
    rw [List.pairwise_flatMap]
    refine ⟨fun k _ => elems_nodup (h.li.inv k) _ _, ?_⟩
    have : kinds.Nodup := by decide
    refine List.Pairwise.imp ?_ this
    intro a b hab x hx y hy exy
    subst exy
    exact hab (((hE a x).1 hx).2.symm.trans ((hE b x).1 hy).2)
  · intro v
    rw [List.mem_flatMap]
    constructor
    · rintro ⟨k, _, hv⟩
      obtain ⟨x, hx, rfl⟩ := List.mem_map.1 hv
      obtain ⟨h1, h2⟩ := (hE k x).1 hx
      have := flags_eq (N := N) (mode := mode) (s.tr x)
      rw [h2] at this
      exact ⟨h1, congrArg Prod.fst this, congrArg Prod.snd this⟩
    · rintro ⟨h1, h2, h3⟩
      refine ⟨kd N mode (s.tr v.1), ?_, List.mem_map.2 ⟨v.1, (hE _ _).2 ⟨h1, rfl⟩, ?_⟩⟩
      · cases kd N mode (s.tr v.1) with
        | donated => decide
        | regular d => cases d <;> decide
        | partialRel d => cases d <;> decide
        | released d => cases d <;> decide
      · obtain ⟨a, b, c⟩ := v
        simp only at h2 h3
        rw [flags_eq, h2, h3]

end Verif.Treatment
