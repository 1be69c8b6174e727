import Verif.Span.Lemmas3
import Verif.Util
import Verif.SizeMap.Props
/-!
Properties of a small-object span's free list (C23) and of its index arithmetic (C24), for both
encodings, both builds, every geometry the size-class tables allow, and every history of pops, pushes and
user writes.
-/
namespace Verif.Span
open Verif.Bitmap (Word bitAt WF)

/-- The induction behind the C23 theorems: what is out and what is free partition the span. -/
theorem Reach.inv {g : Geo} (hg : g.OK) {s : St} {w : Mem} {live : List Nat} (h : Reach g s w live) :
    ∃ F, Rep g s w F ∧ (live ++ F).Nodup ∧ (∀ p, p ∈ live ++ F ↔ IsObj g p) ∧
      live.length + F.length = g.count := by
  have push_case : ∀ {s : St} {w : Mem} {live batch : List Nat} {s' : St} {w' : Mem},
      (∃ F, Rep g s w F ∧ (live ++ F).Nodup ∧ (∀ p, p ∈ live ++ F ↔ IsObj g p) ∧
        live.length + F.length = g.count) → batch.Nodup → (∀ p ∈ batch, p ∈ live) →
      pushBatch g s w batch (calcReciprocal g.size) = some (true, s', w') →
      ∃ F, Rep g s' w' F ∧ (live.filter (fun p => decide (p ∉ batch)) ++ F).Nodup ∧
        (∀ p, p ∈ live.filter (fun p => decide (p ∉ batch)) ++ F ↔ IsObj g p) ∧
        (live.filter (fun p => decide (p ∉ batch))).length + F.length = g.count := by
    intro s w live batch s' w' ih hnd hsub heq
    obtain ⟨F, i1, i2, i3, i4⟩ := ih
    have hn := List.nodup_append.1 i2
    have hperm := filter_out_perm hn.1 hnd hsub
    have hbF : (batch ++ F).Nodup := by
      rw [List.nodup_append]
      exact ⟨hnd, hn.2.1, fun a ha b hb => hn.2.2 a (hsub a ha) b hb⟩
    have hlen := hperm.length_eq
    rw [List.length_append] at hlen
    have hobj : ∀ p ∈ batch, IsObj g p := fun p hp => (i3 p).1 (by simp [hsub p hp])
    have htot := i1.total
    rcases pushBatch_spec hg i1 hbF hobj (by omega) with ⟨_, e⟩ | ⟨_, s2, w2, e, r, _⟩
    · rw [e] at heq; simp at heq
    · rw [e] at heq
      simp only [Option.some.injEq, Prod.mk.injEq, true_and] at heq
      obtain ⟨rfl, rfl⟩ := heq
      have hpp : (live.filter (fun p => decide (p ∉ batch)) ++ (batch ++ F)).Perm (live ++ F) := by
        rw [← List.append_assoc]
        exact List.Perm.append_right _ (List.perm_append_comm.trans hperm)
      refine ⟨batch ++ F, r, hpp.nodup_iff.2 i2, fun p => by rw [hpp.mem_iff, i3], ?_⟩
      rw [List.length_append]; omega
  induction h with
  | build s w n heq =>
    obtain ⟨s', w', out, F, e, a, b, c, _, d⟩ := build_spec hg s w n
    rw [e] at heq
    simp only [Option.some.injEq, Prod.mk.injEq] at heq
    obtain ⟨rfl, rfl, rfl⟩ := heq
    exact ⟨F, a, b, c, d⟩
  | pop n hr heq ih =>
    obtain ⟨F, i1, i2, i3, i4⟩ := ih
    obtain ⟨s', out, F', e, p1, p2, p3⟩ := popBatch_spec hg i1 n
    rw [e] at heq
    simp only [Option.some.injEq, Prod.mk.injEq] at heq
    obtain ⟨rfl, rfl⟩ := heq
    have hperm : ∀ live : List Nat, (out ++ live ++ F').Perm (live ++ F) := by
      intro live
      rw [List.append_assoc]
      refine (List.perm_append_comm_assoc _ _ _).trans ?_
      exact List.Perm.append_left _ p2
    refine ⟨F', p1, (hperm _).nodup_iff.2 i2, fun p => by rw [(hperm _).mem_iff, i3], ?_⟩
    have := p2.length_eq
    rw [List.length_append] at *
    omega
  | push batch hr hnd hsub heq ih => exact push_case ih hnd hsub heq
  | pushIdx batch hr hnd hsub heq ih =>
    have hobj : ∀ p ∈ batch, IsObj g p := by
      obtain ⟨F, _, _, i3, _⟩ := ih
      exact fun p hp => (i3 p).1 (by simp [hsub p hp])
    rw [pushBatchIdx_eq hg _ _ _ hobj] at heq
    exact push_case ih hnd hsub heq
  | write w' hr hw ih =>
    obtain ⟨F, i1, i2, i3, i4⟩ := ih
    refine ⟨F, i1.frame hg ?_, i2, i3, i4⟩
    intro p hp
    exact hw p (i1.objs p hp) (fun hl => (List.nodup_append.1 i2).2.2 p hl p hp rfl)

/-- **C23.** At every point of every history: the objects that are out are distinct objects of the span;
the span's count of them is exact; it says "nothing free" exactly when all its objects are out. -/
theorem span_state_exact (g : Geo) (hg : g.OK) (s : St) (w : Mem) (live : List Nat)
    (h : Reach g s w live) :
    live.Nodup ∧ (∀ p ∈ live, IsObj g p) ∧ s.alloc = live.length ∧
      (freelistEmpty g s = true ↔ live.length = g.count) := by
  obtain ⟨F, i1, i2, i3, i4⟩ := h.inv hg
  have htot := i1.total
  refine ⟨(List.nodup_append.1 i2).1, fun p hp => (i3 p).1 (by simp [hp]), by omega, ?_⟩
  have hF : live.length = g.count ↔ F = [] := by
    rw [← List.length_eq_zero_iff]; omega
  rw [hF]
  unfold freelistEmpty
  cases hlg : g.legacy
  · simp only [Bool.false_eq_true, if_false, decide_eq_true_eq]
    rw [← List.length_eq_zero_iff]; omega
  · simp only [if_true]
    cases hu : useBitmap g
    · simp only [Bool.false_eq_true, if_false, Bool.and_eq_true, decide_eq_true_eq]
      obtain ⟨_, L, hch, hp⟩ := i1.list hu
      constructor
      · rintro ⟨a, b⟩
        rw [b] at hch
        rw [hch.end_nil, List.length_eq_zero_iff.1 a] at hp
        simpa using hp
      · intro hF0
        subst hF0
        have := hp.length_eq
        simp only [List.length_nil, List.length_map, List.length_append, List.length_reverse] at this
        exact ⟨by omega, hch.nil_end (List.length_eq_zero_iff.1 (by omega))⟩
    · simp only [if_true]
      obtain ⟨hwf, hb⟩ := i1.bits hu
      rw [Bitmap.isZero_spec hwf]
      constructor
      · intro hz
        rw [List.eq_nil_iff_forall_not_mem]
        intro p hp
        obtain ⟨k, hk, rfl⟩ := i1.objs p hp
        have h1 := (hb k).2 ⟨hk, hp⟩
        rw [hz k (by have := hg.bitmapFits hu; omega)] at h1
        simp at h1
      · rintro rfl k _
        cases hc : bitAt s.bitmap k with
        | false => rfl
        | true => have := ((hb k).1 hc).2; simp at this

/-- **C23.** A pop never fails; it returns exactly `min n (objects free)` distinct objects of the span,
none of which is out. -/
theorem span_pop_exact (g : Geo) (hg : g.OK) (s : St) (w : Mem) (live : List Nat)
    (h : Reach g s w live) (n : Nat) :
    ∃ s' out, popBatch g s w n = some (s', out) ∧ out.length = min n (g.count - live.length) ∧
      out.Nodup ∧ ∀ p ∈ out, IsObj g p ∧ p ∉ live := by
  obtain ⟨F, i1, i2, i3, i4⟩ := h.inv hg
  obtain ⟨s', out, F', e, _, p2, p3⟩ := popBatch_spec hg i1 n
  have hnF := p2.nodup_iff.2 i1.nodup
  refine ⟨s', out, e, by rw [p3]; omega, (List.nodup_append.1 hnF).1, ?_⟩
  intro p hp
  have hpF := p2.mem_iff.1 (show p ∈ out ++ F' by simp [hp])
  exact ⟨i1.objs p hpF, fun hl => (List.nodup_append.1 i2).2.2 p hl p hpF rfl⟩

/-- **C23.** Building never fails and hands out the first `min n count` objects it can. -/
theorem span_build_exact (g : Geo) (hg : g.OK) (s : St) (w : Mem) (n : Nat) :
    ∃ s' w' out, build g s w n = some (s', w', out) ∧ out.length = min n g.count ∧ out.Nodup ∧
      ∀ p ∈ out, IsObj g p := by
  obtain ⟨s', w', out, F, e, _, b, c, d, _⟩ := build_spec hg s w n
  exact ⟨s', w', out, e, d, (List.nodup_append.1 b).1, fun p hp => (c p).1 (by simp [hp])⟩

/-- **C23.** Pushing back a batch of objects that are out never fails; the answer is `false` exactly when
the batch is everything that was out (and then nothing is changed); the contents of the objects that
stay out are not touched; and the two overloads do the same. -/
theorem span_push_exact (g : Geo) (hg : g.OK) (s : St) (w : Mem) (live : List Nat)
    (h : Reach g s w live) (batch : List Nat) (hnd : batch.Nodup) (hsub : ∀ p ∈ batch, p ∈ live) :
    ∃ b s' w', pushBatch g s w batch (calcReciprocal g.size) = some (b, s', w') ∧
      (b = false ↔ ∀ p ∈ live, p ∈ batch) ∧ (b = false → s' = s ∧ w' = w) ∧
      (∀ p ∈ live, p ∉ batch → ∀ a, InObj g p a → w' a = w a) ∧
      pushBatchIdx g s w (batch.map (objIdx g)) = some (b, s', w') := by
  obtain ⟨F, i1, i2, i3, i4⟩ := h.inv hg
  have hn := List.nodup_append.1 i2
  have hbF : (batch ++ F).Nodup := by
    rw [List.nodup_append]
    exact ⟨hnd, hn.2.1, fun a ha b hb => hn.2.2 a (hsub a ha) b hb⟩
  have hobj : ∀ p ∈ batch, IsObj g p := fun p hp => (i3 p).1 (by simp [hsub p hp])
  have htot := i1.total
  have hle : batch.length ≤ live.length := nodup_subset_length hnd hsub
  have hall : batch.length = live.length ↔ ∀ p ∈ live, p ∈ batch := by
    constructor
    · intro he p hp
      exact nodup_subset_full hn.1 hnd hsub (by omega) p hp
    · intro hh
      have := nodup_subset_length hn.1 hh
      omega
  rw [pushBatchIdx_eq hg _ _ _ hobj]
  rcases pushBatch_spec hg i1 hbF hobj (by omega) with ⟨hl, e⟩ | ⟨hl, s2, w2, e, _, hfr⟩
  · refine ⟨false, s, w, e, ?_, fun _ => ⟨rfl, rfl⟩, fun _ _ _ _ _ => rfl, e⟩
    rw [← hall]; simp; omega
  · refine ⟨true, s2, w2, e, ?_, by simp, ?_, e⟩
    · rw [← hall]; simp; omega
    · intro p hp hpb a ha
      apply hfr
      intro q hq hqa
      have hqo : IsObj g q := by
        rcases List.mem_append.1 hq with h' | h'
        · exact hobj q h'
        · exact i1.objs q h'
      have hne : p ≠ q := by
        rintro rfl
        rcases List.mem_append.1 hq with h' | h'
        · exact hpb h'
        · exact hn.2.2 p hp p h' rfl
      obtain ⟨k, _, rfl⟩ := (i3 p).1 (by simp [hp])
      obtain ⟨j, _, rfl⟩ := hqo
      unfold InObj at ha hqa
      rcases Nat.lt_trichotomy k j with h' | h' | h'
      · have := Nat.mul_le_mul_right g.size (show k + 1 ≤ j from h')
        rw [Nat.add_mul] at this; omega
      · subst h'; exact hne rfl
      · have := Nat.mul_le_mul_right g.size (show j + 1 ≤ k from h')
        rw [Nat.add_mul] at this; omega

/-- **C24.** The multiply-and-shift that replaces the division by the object size is exact on every
object of every span: address to index and back are inverse, and each index fits its 16-bit type and its
bitmap (respectively, is never mistaken for the end-of-list mark). -/
theorem object_index_exact (g : Geo) (hg : g.OK) (k : Nat) (hk : k < g.count) :
    (useBitmap g = true → bitmapPtrToIdx g (g.start + k * g.size) (calcReciprocal g.size) = k ∧
        bitmapIdxToPtr g k = g.start + k * g.size ∧ k < g.bitmapSize) ∧
    (useBitmap g = false → idxToPtr g.start (ptrToIdx g (g.start + k * g.size)) = g.start + k * g.size ∧
        ptrToIdx g (g.start + k * g.size) < kListEnd) := by
  constructor
  · intro hu
    have hbm := hg.bitmapFits hu
    have hbs : g.bitmapSize ≤ 240 := by unfold Geo.bitmapSize; have := hg.cacheHi; omega
    exact ⟨bitmapPtrToIdx_obj hg hk (by omega), rfl, by omega⟩
  · intro hu
    obtain ⟨a, b⟩ := ptrToIdx_obj hg hu hk
    rw [a]
    exact ⟨idxToPtr_obj hg k, by unfold kListEnd; omega⟩

/-- **C24.** Distinct objects have distinct indices. -/
theorem object_index_injective (g : Geo) (hg : g.OK) (p q : Nat) (hp : IsObj g p) (hq : IsObj g q)
    (h : objIdx g p = objIdx g q) : p = q := by
  obtain ⟨k, hk, rfl⟩ := hp
  obtain ⟨j, hj, rfl⟩ := hq
  unfold objIdx at h
  cases hu : useBitmap g
  · simp only [hu, Bool.false_eq_true, if_false] at h
    rw [← ((object_index_exact g hg k hk).2 hu).1, ← ((object_index_exact g hg j hj).2 hu).1, h]
  · simp only [hu, if_true] at h
    rw [((object_index_exact g hg k hk).1 hu).1, ((object_index_exact g hg j hj).1 hu).1] at h
    rw [h]

/-- **C23.** A span knows its page count, and sampling it and un-sampling it returns the sample and loses
nothing. -/
theorem span_pages_exact (n a : Nat) (hn : 0 < n) :
    numPages (newMeta n) = n ∧
    ∃ m, sample (newMeta n) a = some m ∧ numPages m = n ∧ sample m a = none ∧
      ∃ m', unsample m = some (m', some a) ∧ numPages m' = n ∧ unsample m' = some (m', none) := by
  unfold newMeta setNumPages
  by_cases h : n > 63
  · have h1 : (n > 63 ∨ (⟨false, false, 0, 0, none⟩ : Meta).sampled = true) := Or.inl h
    rw [if_pos h1]
    have hn0 : n ≠ 0 := by omega
    simp [numPages, sample, unsample, h, hn0]
  · have h1 : ¬ (n > 63 ∨ (⟨false, false, 0, 0, none⟩ : Meta).sampled = true) := by simp; omega
    rw [if_neg h1]
    have h2 : n % 64 = n := by omega
    have hn0 : n ≠ 0 := by omega
    simp [numPages, sample, unsample, h2, hn0]

/-- The geometry of a span of an accepted table's class (central_freelist.h:429-430: objects per span is
the span's bytes divided by the object size). -/
def geoOf (cfg : SizeMap.Cfg) (e : SizeMap.Info) (legacy : Bool) (firstPage : Nat) : Geo :=
  ⟨cfg.pageShift, cfg.bitmapSize / 16, legacy, firstPage, e.bytes / cfg.pageSize, e.size,
    e.bytes / e.size⟩

/-- **C23/C24.** The hypotheses of the theorems above hold for every class of every table the size map
accepts at start-up (in particular every shipped table), in every build. -/
theorem accepted_class_span_ok (cfg : SizeMap.Cfg) (hc : cfg.Shipped) (t : List SizeMap.Info)
    (leftover : Nat) (m : SizeMap.Maps) (hm : SizeMap.init cfg t leftover = .ok m)
    (e : SizeMap.Info) (he : e ∈ t.tail) (legacy : Bool) (firstPage : Nat) :
    (geoOf cfg e legacy firstPage).OK := by
  obtain ⟨_, _, hall⟩ := SizeMap.accepted_table_wellformed cfg hc t leftover m hm
  obtain ⟨h1, h2, h3, ⟨pages, p1, p2, p3, p4, p5, p6⟩, _⟩ := hall e he
  have hshift : 12 ≤ cfg.pageShift ∧ cfg.pageShift ≤ 18 := by
    have := hc.base
    simp only [SizeMap.baseConfigs, List.mem_cons, List.not_mem_nil, or_false, Prod.mk.injEq] at this
    omega
  have hbit : cfg.bitmapSize = 16 * (cfg.bitmapSize / 16) ∧ cfg.bitmapSize ≤ 192 := by
    have := hc.bitmap
    simp only [List.mem_cons, List.not_mem_nil, or_false] at this
    omega
  have hps : 0 < cfg.pageSize := Nat.pow_pos (by omega)
  have hpg : e.bytes / cfg.pageSize = pages := by rw [p3, Nat.mul_div_cancel _ hps]
  have hsz : (geoOf cfg e legacy firstPage).pageSize = cfg.pageSize := rfl
  have hbm : (geoOf cfg e legacy firstPage).bitmapSize = cfg.bitmapSize := hbit.1.symm
  constructor
  · exact hshift.1
  · exact hshift.2
  · show e.bytes / cfg.pageSize ≤ 63
    omega
  · show cfg.bitmapSize / 16 ≤ 15
    omega
  · exact h1
  · exact Nat.mod_eq_zero_of_dvd h3
  · exact Nat.div_pos p4 h1
  · show e.bytes / e.size * e.size ≤ e.bytes / cfg.pageSize * cfg.pageSize
    rw [hpg, ← p3]; exact Nat.div_mul_le_self _ _
  · intro hu
    show e.bytes / cfg.pageSize = 1
    rw [hpg]
    apply p5
    unfold useBitmap at hu
    rw [hsz, hbm] at hu
    simpa [geoOf] using hu
  · intro hu
    rw [hbm]
    apply p6
    unfold useBitmap at hu
    rw [hsz, hbm] at hu
    simpa [geoOf] using hu

/-! ### Non-vacuity -/

/-- 8-byte objects in one 8 KiB page: the list encoding, 1024 objects. -/
def gList : Geo := ⟨13, 12, false, 5, 1, 8, 1024⟩
/-- 4480-byte objects in 5 pages of 8 KiB: the bitmap encoding, 9 objects. -/
def gBits : Geo := ⟨13, 12, false, 5, 5, 4480, 9⟩

theorem gList_ok : gList.OK := by constructor <;> decide
theorem gBits_ok : gBits.OK := by constructor <;> decide

example : useBitmap gList = false ∧ useBitmap gBits = true := by decide

open Classical in
/-- A history with a build, a pop, user writes and a push, on the list encoding. -/
example : ∃ s w live, Reach gList s w live ∧ live.length = 31 := by
  obtain ⟨s1, w1, out1, e1, l1, -, -⟩ := span_build_exact gList gList_ok ⟨7, [], 0, 0, []⟩ (fun _ => 9) 32
  have r1 := Reach.build _ _ _ e1
  obtain ⟨s2, out2, e2, l2, -, -⟩ := span_pop_exact gList gList_ok s1 w1 out1 r1 1
  have r2 := Reach.pop _ r1 e2
  have r3 := Reach.write (fun a => if ∃ p ∈ out2, InObj gList p a then 77 else w1 a) r2 (by
    intro p hp hn a ha
    rw [if_neg]
    rintro ⟨q, hq, hqa⟩
    obtain ⟨k, _, rfl⟩ := hp
    obtain ⟨_, _, hq'⟩ := span_pop_exact gList gList_ok s1 w1 out1 r1 1
    obtain ⟨j, _, rfl⟩ := (span_state_exact gList gList_ok _ _ _ r2).2.1 q (by simp [hq])
    unfold InObj at ha hqa
    have : gList.size = 8 := rfl
    rw [this] at ha hqa
    have : k = j := by omega
    subst this
    exact hn (by simp [hq]))
  have hc : gList.count = 1024 := rfl
  match hb : out1, l1 with
  | p :: q :: ps, l1 =>
    have hnd := (span_state_exact gList gList_ok _ _ _ r1).1
    have hpq : p ≠ q := by
      rintro rfl; simp at hnd
    obtain ⟨b, s', w', e4, b4, -, -, -⟩ := span_push_exact gList gList_ok _ _ _ r3 [p, q]
      (by simp [hpq]) (by simp)
    have hb4 : b = true := by
      cases b with
      | true => rfl
      | false =>
        have := b4.1 rfl
        have hn2 := (span_state_exact gList gList_ok _ _ _ r3).1
        have := nodup_subset_length hn2 this
        simp only [List.length_append, List.length_cons, List.length_nil] at this l1 l2
        omega
    subst hb4
    refine ⟨s', w', _, Reach.push [p, q] r3 (by simp [hpq]) (by simp) e4, ?_⟩
    have hn3 := (span_state_exact gList gList_ok _ _ _ r3).1
    have := (filter_out_perm hn3 (show [p, q].Nodup by simp [hpq]) (by simp)).length_eq
    simp only [List.length_append, List.length_cons, List.length_nil] at this l1 l2
    omega
  | [], l1 => simp [hc] at l1
  | [_], l1 => simp [hc] at l1

end Verif.Span
