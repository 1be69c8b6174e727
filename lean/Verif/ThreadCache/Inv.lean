import Verif.ThreadCache.Lemmas
/-! The invariant of all caches together and its preservation by every event. -/
namespace Verif.ThreadCache

structure Inv (cfg : Cfg) (w : W) : Prop where
  nodup : (w.heaps.map (·.id)).Nodup
  each : ∀ h ∈ w.heaps, HInv cfg h
  sum : w.unclaimed + claimed w.heaps = w.overall
  next : ∀ c, w.next = some c → c ∈ w.heaps.map (·.id)
  overall : cfg.kMin ≤ w.overall
  user : ∀ p ∈ w.user, cfg.Used p.1

theorem count_W (cfg : Cfg) (w : W) (x : Nat × Nat) :
    (w.objects cfg).count x = w.user.count x + (w.heaps.map fun h => (h.objects cfg).count x).sum := by
  unfold W.objects
  rw [List.count_append, List.count_flatMap]
  rfl

/-- A step of the owner of a cache on the whole state. -/
theorem put_ok {cfg : Cfg} {w : W} (hi : Inv cfg w) {h h' : Heap} {ins outs u : List (Nat × Nat)} (hf : find w.heaps h.id = some h)
    (hm : Moved cfg h h' ins outs) (hu : ∀ p ∈ u, cfg.Used p.1) :
    Inv cfg { w.put h' with user := u } ∧
    ∀ x, (({ w.put h' with user := u } : W).objects cfg).count x + w.user.count x + outs.count x =
      (w.objects cfg).count x + u.count x + ins.count x := by
  have hf' : find w.heaps h'.id = some h := by rw [hm.id]; exact hf
  refine ⟨⟨?_, ?_, ?_, ?_, hi.overall, hu⟩, ?_⟩
  · show ((put w.heaps h').map _).Nodup; rw [put_ids]; exact hi.nodup
  · intro a ha
    rcases put_mem ha with rfl | ha
    · exact hm.inv
    · exact hi.each a ha
  · have := sum_put (·.max) hi.nodup hf'
    have h2 := hm.max
    have h3 := hi.sum
    show w.unclaimed + ((put w.heaps h').map (·.max)).sum = (w.overall : Int)
    unfold claimed at h3
    simp only [h2] at this
    omega
  · intro c hc; show c ∈ (put w.heaps h').map _; rw [put_ids]; exact hi.next c hc
  · intro x
    have := sum_put (fun h => (h.objects cfg).count x) hi.nodup hf'
    have h2 := hm.objs x
    rw [count_W, count_W]
    show u.count x + ((put w.heaps h').map fun h => (h.objects cfg).count x).sum + _ + _ = _
    omega

theorem put_ok' {cfg : Cfg} {w : W} (hi : Inv cfg w) {h h' : Heap} {ins outs : List (Nat × Nat)} (hf : find w.heaps h.id = some h)
    (hm : Moved cfg h h' ins outs) :
    Inv cfg (w.put h') ∧
    ∀ x, ((w.put h').objects cfg).count x + outs.count x = (w.objects cfg).count x + ins.count x := by
  obtain ⟨h1, h2⟩ := put_ok hi hf hm hi.user
  exact ⟨h1, fun x => by have := h2 x; have e : (({ w.put h' with user := w.user } : W).objects cfg) = (w.put h').objects cfg := rfl; rw [e] at this; omega⟩

/-! ## Limits -/

theorem stealLoop_ok {cfg : Cfg} (hc : cfg.OK) {l : List Heap} (self : Nat) (hl : l ≠ []) : ∀ (n : Nat) (next : Option Nat),
    (∀ c, next = some c → c ∈ l.map (·.id)) → ∃ l' next' b, stealLoop cfg l self n next = some (l', next', b) ∧
      (∀ c, next' = some c → c ∈ l.map (·.id)) ∧
      ((l' = l ∧ b = 0) ∨ ∃ h, find l h.id = some h ∧ h.id ≠ self ∧ cfg.kMin < h.max ∧
        l' = put l { h with max := h.max - cfg.kSteal } ∧ b = cfg.kSteal) := by
  intro n
  induction n with
  | zero => intro next hn; exact ⟨l, next, 0, rfl, hn, .inl ⟨rfl, rfl⟩⟩
  | succ n ih =>
    intro next hn
    have hcur : ∃ cur, cursor l next = some cur ∧ cur ∈ l.map (·.id) := by
      cases next with
      | some c => exact ⟨c, rfl, hn c rfl⟩
      | none =>
        cases l with
        | nil => exact absurd rfl hl
        | cons a r => exact ⟨a.id, rfl, by simp⟩
    obtain ⟨cur, e1, e2⟩ := hcur
    obtain ⟨h, hf⟩ := find_of_mem e2
    have hid := (find_mem hf).1
    unfold stealLoop
    rw [e1]
    dsimp only
    rw [hf]
    dsimp only
    split
    · exact ih _ (fun c hc => after_mem hc)
    · rename_i hn2
      rw [not_or] at hn2
      have := hc.le
      rw [if_neg (by omega)]
      exact ⟨_, _, _, rfl, fun c hc => after_mem hc, .inr ⟨h, by rw [hid]; exact hf, by rw [hid]; exact hn2.1, by omega, rfl, rfl⟩⟩

/-- The caches after `IncreaseCacheLimitLocked`: `b` bytes were taken from the pool or from another cache. -/
structure Raised (cfg : Cfg) (w w' : W) (me b : Nat) : Prop where
  ids : w'.heaps.map (·.id) = w.heaps.map (·.id)
  each : ∀ h ∈ w'.heaps, HInv cfg h
  sum : w'.unclaimed + claimed w'.heaps + b = w.overall
  next : ∀ c, w'.next = some c → c ∈ w'.heaps.map (·.id)
  overall : w'.overall = w.overall
  user : w'.user = w.user
  same : find w'.heaps me = find w.heaps me
  objs : ∀ x, (w'.objects cfg).count x = (w.objects cfg).count x
  zero : b = 0 → w'.unclaimed ≤ 0

theorem HInv.limit {cfg : Cfg} {h : Heap} (hi : HInv cfg h) (m : Nat) : HInv cfg { h with max := m } :=
  ⟨hi.low, hi.maxl, hi.len, hi.used, hi.size, hi.st⟩

theorem increase_ok {cfg : Cfg} (hc : cfg.OK) {w : W} (hi : Inv cfg w) (self : Nat) :
    ∃ w' b, w.increase cfg self = some (w', b) ∧ Raised cfg w w' self b := by
  unfold W.increase
  have hsum := hi.sum
  have hov := hi.overall
  have hs0 := hc.steal
  have hle := hc.le
  split
  · refine ⟨_, _, rfl, ⟨rfl, hi.each, ?_, hi.next, rfl, rfl, rfl, fun _ => rfl, fun h => by omega⟩⟩
    show w.unclaimed - (cfg.kSteal : Int) + claimed w.heaps + _ = (w.overall : Int)
    omega
  · rename_i hneg
    have hl : w.heaps ≠ [] := by
      intro e
      rw [e] at hsum
      have : claimed [] = 0 := rfl
      rw [this] at hsum
      omega
    obtain ⟨l', next', b, e, hn, hd⟩ := stealLoop_ok hc self hl 10 w.next hi.next
    rw [e]
    refine ⟨_, _, rfl, ?_⟩
    rcases hd with ⟨rfl, rfl⟩ | ⟨h, hf, hne, hmax, rfl, rfl⟩
    · exact ⟨rfl, hi.each, by show w.unclaimed + claimed w.heaps + ((0 : Nat) : Int) = _; omega, hn, rfl, rfl, rfl, fun _ => rfl,
        fun _ => by show w.unclaimed ≤ 0; omega⟩
    · have hmem := (find_mem hf).2
      refine ⟨put_ids _ _, ?_, ?_, ?_, rfl, rfl, ?_, ?_, fun h => by omega⟩
      · intro a ha
        rcases put_mem ha with rfl | ha
        · exact (hi.each h hmem).limit _
        · exact hi.each a ha
      · have := sum_put (·.max) (h' := { h with max := h.max - cfg.kSteal }) hi.nodup hf
        dsimp only at this
        unfold claimed at hsum ⊢
        show w.unclaimed + ((put w.heaps _).map (·.max)).sum + _ = _
        omega
      · intro c hc; show c ∈ (put w.heaps _).map _; rw [put_ids]; exact hn c hc
      · exact find_put_ne (fun e => hne e.symm)
      · intro x
        rw [count_W, count_W]
        have := sum_put (fun h => (h.objects cfg).count x) (h' := { h with max := h.max - cfg.kSteal }) hi.nodup hf
        have e : Heap.objects cfg { h with max := h.max - cfg.kSteal } = h.objects cfg := rfl
        rw [e] at this
        show w.user.count x + ((put w.heaps _).map _).sum = _
        omega

theorem new_HInv (cfg : Cfg) (id m : Nat) : HInv cfg ⟨id, fun _ => FL.new, 0, m, .idle⟩ := by
  refine ⟨fun _ => Nat.le_refl _, fun _ => ⟨Nat.le_refl _, by show 1 ≤ 8192; omega⟩, fun _ => Nat.zero_le _, fun k h => absurd rfl h, ?_, trivial⟩
  show 0 = ((List.range cfg.nc).map fun k => cfg.size k * 0).sum + 0
  have : ∀ n, ((List.range n).map fun k => cfg.size k * 0).sum = 0 := by
    intro n
    induction n with
    | zero => rfl
    | succ n ih => rw [List.range_succ, List.map_append, List.sum_append, ih]; simp
  rw [this]

theorem new_objects (cfg : Cfg) (id m : Nat) : Heap.objects cfg ⟨id, fun _ => FL.new, 0, m, .idle⟩ = [] := by
  unfold Heap.objects
  show ((List.range cfg.nc).flatMap fun k => pairs k []) = []
  have : (fun k : Nat => pairs k []) = fun _ => [] := rfl
  rw [this]; simp

theorem newHeap_ok {cfg : Cfg} (hc : cfg.OK) {w : W} (hi : Inv cfg w) {id : Nat} (hid : find w.heaps id = none) :
    ∃ w', w.newHeap cfg id = some w' ∧ Inv cfg w' ∧ (∀ x, (w'.objects cfg).count x = (w.objects cfg).count x) ∧ w'.user = w.user := by
  obtain ⟨w1, b, e, hr⟩ := increase_ok hc hi id
  have hkm : 0 < cfg.kMin := by have := hc.steal; have := hc.le; omega
  unfold W.newHeap
  rw [e]
  dsimp only
  have hnn : ¬((b = 0 ∧ 0 ≤ (if b = 0 then (w1.unclaimed - (cfg.kMin : Int), cfg.kMin) else (w1.unclaimed, b)).1) ∨
      (w1.heaps = [] ∧ w1.next ≠ none)) := by
    intro h
    rcases h with ⟨h1, h2⟩ | ⟨h1, h2⟩
    · rw [if_pos h1] at h2
      have := hr.zero h1
      simp only at h2
      omega
    · cases hw : w1.next with
      | none => exact h2 hw
      | some c => have := hr.next c hw; rw [h1] at this; cases this
  rw [if_neg hnn]
  refine ⟨_, rfl, ⟨?_, ?_, ?_, ?_, ?_, ?_⟩, ?_, hr.user⟩
  · show (id :: w1.heaps.map (·.id)).Nodup
    rw [List.nodup_cons, hr.ids]
    exact ⟨find_none hid, hi.nodup⟩
  · intro a ha
    rcases List.mem_cons.mp ha with rfl | ha
    · exact new_HInv _ _ _
    · exact hr.each a ha
  · have := hr.sum
    have h2 := hr.overall
    unfold claimed at this ⊢
    show (if b = 0 then (w1.unclaimed - (cfg.kMin : Int), cfg.kMin) else (w1.unclaimed, b)).1 +
      (((if b = 0 then (w1.unclaimed - (cfg.kMin : Int), cfg.kMin) else (w1.unclaimed, b)).2 + (w1.heaps.map (·.max)).sum : Nat) : Int) = (w1.overall : Int)
    split <;> simp only <;> omega
  · intro c hc'
    show c ∈ id :: w1.heaps.map (·.id)
    have hc' : (if w1.heaps.isEmpty = true then some id else w1.next) = some c := hc'
    split at hc'
    · cases hc'; exact .head _
    · exact .tail _ (hr.next c hc')
  · show cfg.kMin ≤ w1.overall; rw [hr.overall]; exact hi.overall
  · show ∀ p ∈ w1.user, _; rw [hr.user]; exact hi.user
  · intro x
    have := hr.objs x
    rw [count_W] at this ⊢
    show w1.user.count x + ((⟨id, fun _ => FL.new, 0, _, .idle⟩ :: w1.heaps).map fun h => (h.objects cfg).count x).sum = _
    rw [List.map_cons, List.sum_cons, new_objects, List.count_nil]
    omega

theorem incr_ok {cfg : Cfg} (hc : cfg.OK) {w : W} (hi : Inv cfg w) {h : Heap} (hf : find w.heaps h.id = some h) (hst : h.st = .incr) :
    ∃ w1 b, w.increase cfg h.id = some (w1, b) ∧ Inv cfg (w1.put { h.go .idle with max := h.max + b }) ∧
      ∀ x, ((w1.put { h.go .idle with max := h.max + b }).objects cfg).count x = (w.objects cfg).count x := by
  obtain ⟨w1, b, e, hr⟩ := increase_ok hc hi h.id
  refine ⟨w1, b, e, ?_, ?_⟩
  · have hh := hi.each h (find_mem hf).2
    have hnd : (w1.heaps.map (·.id)).Nodup := by rw [hr.ids]; exact hi.nodup
    have hf1 : find w1.heaps h.id = some h := by rw [hr.same]; exact hf
    have hg : HInv cfg (h.go .idle) := (moved_go hh .idle (fun k => by have := hh.len k; rw [hst] at this; exact this)
        (by unfold Heap.leaving; rw [hst]; rfl) trivial).inv
    refine ⟨?_, ?_, ?_, ?_, ?_, ?_⟩
    · show ((put w1.heaps _).map _).Nodup; rw [put_ids]; exact hnd
    · intro a ha
      rcases put_mem ha with rfl | ha
      · exact hg.limit _
      · exact hr.each a ha
    · have : ((put w1.heaps { h.go .idle with max := h.max + b }).map (·.max)).sum + h.max = (w1.heaps.map (·.max)).sum + (h.max + b) :=
        sum_put (·.max) (h' := { h.go .idle with max := h.max + b }) hnd hf1
      have h3 := hr.sum
      unfold claimed at h3
      have h4 := hr.overall
      show w1.unclaimed + (((put w1.heaps { h.go .idle with max := h.max + b }).map (·.max)).sum : Nat) = (w1.overall : Int)
      omega
    · intro c hc'; show c ∈ (put w1.heaps _).map _; rw [put_ids]; exact hr.next c hc'
    · show cfg.kMin ≤ w1.overall; rw [hr.overall]; exact hi.overall
    · show ∀ p ∈ w1.user, _; rw [hr.user]; exact hi.user
  · intro x
    have hnd : (w1.heaps.map (·.id)).Nodup := by rw [hr.ids]; exact hi.nodup
    have hf1 : find w1.heaps h.id = some h := by rw [hr.same]; exact hf
    have := sum_put (fun h => (h.objects cfg).count x) (h' := { h.go .idle with max := h.max + b }) hnd hf1
    have e : Heap.objects cfg { h.go .idle with max := h.max + b } = h.objects cfg := rfl
    rw [e] at this
    have h3 := hr.objs x
    rw [count_W] at h3 ⊢
    show w1.user.count x + ((put w1.heaps _).map _).sum = _
    omega

/-! ## Unlinking -/

theorem filter_sum (F : Heap → Nat) {l : List Heap} {h : Heap} (hn : (l.map (·.id)).Nodup) (hf : find l h.id = some h) :
    ((l.filter fun h' => h'.id ≠ h.id).map F).sum + F h = (l.map F).sum := by
  induction l with
  | nil => cases hf
  | cons a r ih =>
    simp only [List.map_cons, List.nodup_cons] at hn
    unfold find at hf
    by_cases ha : a.id = h.id
    · rw [if_pos ha] at hf
      cases hf
      have : (r.filter fun h' => h'.id ≠ h.id) = r := by
        apply List.filter_eq_self.mpr
        intro b hb
        simp only [ne_eq, decide_eq_true_eq]
        intro e
        exact hn.1 (e ▸ List.mem_map.mpr ⟨b, hb, rfl⟩)
      rw [List.filter_cons_of_neg (by simp), this]
      simp only [List.map_cons, List.sum_cons]
      omega
    · rw [if_neg ha] at hf
      have := ih hn.2 hf
      rw [List.filter_cons_of_pos (by simp [ha])]
      simp only [List.map_cons, List.sum_cons]
      omega

theorem after_ne : ∀ {l : List Heap} {id c : Nat}, (l.map (·.id)).Nodup → after l id = some c → c ≠ id
  | a :: r, id, c, hn, e => by
    simp only [List.map_cons, List.nodup_cons] at hn
    unfold after at e
    split at e
    · rename_i ha
      cases r with
      | nil => cases e
      | cons b r =>
        cases e
        intro hb
        exact hn.1 (by rw [ha, ← hb]; exact List.mem_map.mpr ⟨b, .head _, rfl⟩)
    · exact after_ne hn.2 e

theorem unlink_ok {cfg : Cfg} {w : W} (hi : Inv cfg w) {h : Heap} (hf : find w.heaps h.id = some h) (ho : ∀ j, (h.list j).objs = []) :
    Inv cfg (w.unlink h) ∧ ∀ x, ((w.unlink h).objects cfg).count x = (w.objects cfg).count x := by
  have hids : ∀ c, c ∈ w.heaps.map (·.id) → c ≠ h.id → c ∈ (w.heaps.filter fun h' => h'.id ≠ h.id).map (·.id) := by
    intro c hc hne
    obtain ⟨a, ha, rfl⟩ := List.mem_map.mp hc
    exact List.mem_map.mpr ⟨a, List.mem_filter.mpr ⟨ha, by simpa using hne⟩, rfl⟩
  refine ⟨⟨?_, ?_, ?_, ?_, hi.overall, hi.user⟩, ?_⟩
  · exact (List.filter_sublist.map _).nodup hi.nodup
  · intro a ha; exact hi.each a (List.mem_filter.mp ha).1
  · have := filter_sum (·.max) hi.nodup hf
    have h2 := hi.sum
    unfold claimed at h2 ⊢
    show w.unclaimed + (h.max : Int) + (((w.heaps.filter fun h' => h'.id ≠ h.id).map (·.max)).sum : Nat) = (w.overall : Int)
    omega
  · intro c hc
    show c ∈ (w.heaps.filter fun h' => h'.id ≠ h.id).map (·.id)
    have hc : cursor (w.heaps.filter fun h' => h'.id ≠ h.id) (if w.next = some h.id then after w.heaps h.id else w.next) = some c := hc
    unfold cursor at hc
    split at hc
    · rename_i c' e
      cases hc
      split at e
      · exact hids _ (after_mem e) (after_ne hi.nodup e)
      · rename_i hne; exact hids _ (hi.next _ e) (fun e' => hne (e' ▸ e))
    · cases hl : (w.heaps.filter fun h' => h'.id ≠ h.id) with
      | nil => rw [hl] at hc; cases hc
      | cons a r => rw [hl] at hc; cases hc; simp
  · intro x
    have := filter_sum (fun h => (h.objects cfg).count x) hi.nodup hf
    have e : h.objects cfg = [] := by
      unfold Heap.objects
      simp only [ho]
      have : (fun k : Nat => pairs k []) = fun _ => [] := rfl
      rw [this]; simp
    simp only [e, List.count_nil] at this
    rw [count_W, count_W]
    show w.user.count x + (((w.heaps.filter fun h' => h'.id ≠ h.id).map fun h => (h.objects cfg).count x)).sum = _
    omega

/-! ## Changing the overall size -/

theorem resize_ok {cfg : Cfg} {w : W} (hi : Inv cfg w) (n : Nat) (scale : Nat → Nat) (hn : n < 2 ^ 63)
    (hk : cfg.kMin < 2 ^ 63) :
    Inv cfg (w.resize cfg n scale) ∧ (∀ x, ((w.resize cfg n scale).objects cfg).count x = (w.objects cfg).count x) := by
  have hh : ∀ l : List Heap, l = w.heaps ∨ l = w.heaps.map (fun h => { h with max := min (scale h.id) h.max }) →
      l.map (·.id) = w.heaps.map (·.id) ∧ (∀ h ∈ l, HInv cfg h) ∧ ∀ x, (l.map fun h => (h.objects cfg).count x) = w.heaps.map fun h => (h.objects cfg).count x := by
    intro l hl
    rcases hl with rfl | rfl
    · exact ⟨rfl, hi.each, fun _ => rfl⟩
    · refine ⟨by rw [List.map_map]; rfl, ?_, fun x => by rw [List.map_map]; rfl⟩
      intro a ha
      obtain ⟨b, hb, rfl⟩ := List.mem_map.mp ha
      exact (hi.each b hb).limit _
  have hl : (w.resize cfg n scale).heaps = w.heaps ∨ (w.resize cfg n scale).heaps = w.heaps.map (fun h => { h with max := min (scale h.id) h.max }) := by
    unfold W.resize
    dsimp only
    generalize (if cfg.kMax < _ then _ else _) = s
    by_cases hs : s < max 1 w.per
    · rw [if_pos hs]; exact .inr rfl
    · rw [if_neg hs]; exact .inl rfl
  obtain ⟨h1, h2, h3⟩ := hh _ hl
  have hn' : (if n < cfg.kMin then cfg.kMin else n) < 2 ^ 63 := by split <;> omega
  refine ⟨⟨by rw [h1]; exact hi.nodup, h2, ?_, by rw [h1]; exact hi.next, ?_, hi.user⟩, ?_⟩
  · have e : (w.resize cfg n scale).unclaimed = toI64 (if n < cfg.kMin then cfg.kMin else n) - claimed (w.resize cfg n scale).heaps := rfl
    rw [e]
    show _ = (((if n < cfg.kMin then cfg.kMin else n) : Nat) : Int)
    unfold toI64
    rw [if_pos hn']
    omega
  · show cfg.kMin ≤ (if n < cfg.kMin then cfg.kMin else n)
    split <;> omega
  · intro x
    rw [count_W, count_W, h3]
    rfl

/-! ## All steps -/

theorem stepH_ok {cfg : Cfg} (hc : cfg.OK) {w : W} (hi : Inv cfg w) {h : Heap} (hf : find w.heaps h.id = some h) :
    ∃ w' out, stepH cfg w h = some (w', out) ∧ Inv cfg w' ∧
      (∀ x, (w'.objects cfg).count x + out.leaves.count x = (w.objects cfg).count x) := by
  have hh := hi.each h (find_mem hf).2
  have hs := hh.st
  have hput : ∀ (h' : Heap) (out : Out), Moved cfg h h' [] out.leaves → Inv cfg (w.put h') ∧
      (∀ x, ((w.put h').objects cfg).count x + out.leaves.count x = (w.objects cfg).count x) := by
    intro h' out hm
    obtain ⟨a, b⟩ := put_ok' hi hf hm
    exact ⟨a, fun x => by have := b x; rw [List.count_nil] at this; omega⟩
  unfold stepH
  unfold StOK at hs
  split
  · exact ⟨_, _, rfl, hi, fun _ => rfl⟩
  · exact ⟨_, _, rfl, hi, fun _ => rfl⟩
  · rename_i k hst
    rw [hst] at hs
    split
    · rename_i hlt
      refine ⟨_, _, rfl, hput _ .tau (release_moved hh hs hs.2.2.1 (fun e => ?_) ?_ ?_ nofun)⟩
      · rw [e, List.length_nil] at hlt; omega
      · unfold Heap.leaving; rw [hst]
      · intro j; rw [hst]; exact Nat.le_refl _
    · rename_i hlt
      refine ⟨_, _, rfl, hput _ .tau (moved_go hh .check ?_ ?_ trivial)⟩
      · intro j
        have := hh.len j
        rw [hst] at this
        simp only [St.extra] at this ⊢
        split at this
        · rename_i hj; subst hj; have := (hh.maxl k).2; omega
        · exact this
      · unfold Heap.leaving; rw [hst]; rfl
  · rename_i hst
    have hlen : ∀ k, (h.list k).objs.length ≤ kMaxDynamicFreeListLength + 0 := fun k => by
      have := hh.len k; rw [hst] at this; exact this
    have hlv : h.leaving cfg = 0 := by unfold Heap.leaving; rw [hst]
    split
    · exact ⟨_, _, rfl, hput _ .tau (moved_go hh (.scav 0) hlen (by rw [hlv]; rfl) trivial)⟩
    · exact ⟨_, _, rfl, hput _ .freed (moved_go hh .idle hlen (by rw [hlv]; rfl) trivial)⟩
  · rename_i k n m ret hst
    obtain ⟨h', l, e, hm, _⟩ := rel_moved hh hst
    rw [e]
    exact ⟨_, _, rfl, hput h' (.toBacking k l) hm⟩
  · rename_i k hst
    have hlen : ∀ k, (h.list k).objs.length ≤ kMaxDynamicFreeListLength + 0 := fun k => by
      have := hh.len k; rw [hst] at this; exact this
    have hlv : h.leaving cfg = 0 := by unfold Heap.leaving; rw [hst]
    have hlow := hh.low k
    split
    · exact ⟨_, _, rfl, hput _ .tau (moved_go hh .incr hlen (by rw [hlv]; rfl) trivial)⟩
    · rename_i hk
      split
      · rename_i hl
        have hne : (h.list k).objs ≠ [] := fun e => by rw [e, List.length_nil] at hlow; omega
        refine ⟨_, _, rfl, hput _ .tau (release_moved hh (hh.used k hne) (by split <;> omega) hne hlv ?_ nofun)⟩
        intro j; rw [hst]; exact Nat.zero_le _
      · refine ⟨_, _, rfl, hput _ .tau ?_⟩
        have := moved_setL hh (ins := []) (outs := []) (k := k) (by omega) (h.list k).clearLow h.size (.scav (k + 1)) (Nat.le_refl _) (hh.maxl k)
          (hlen k) (fun j _ => by rw [hst]; exact Nat.le_refl _) (hh.used k) (by
            rw [hlv]
            have : ((h.setL k (h.list k).clearLow).go (.scav (k + 1))).leaving cfg = 0 := rfl
            rw [this]
            rfl) trivial (fun x => rfl)
        exact this
  · rename_i hst
    obtain ⟨w1, b, e, h1, h2⟩ := incr_ok hc hi hf hst
    rw [e]
    exact ⟨_, _, rfl, h1, h2⟩
  · rename_i k hst
    have hlen : ∀ k, (h.list k).objs.length ≤ kMaxDynamicFreeListLength + 0 := fun k => by
      have := hh.len k; rw [hst] at this; exact this
    have hlv : h.leaving cfg = 0 := by unfold Heap.leaving; rw [hst]
    rw [hst] at hs
    split
    · rename_i hk
      refine ⟨_, _, rfl, hput _ .tau (moved_go hh .unlink hlen (by rw [hlv]; rfl) ?_)⟩
      intro j
      show (h.list j).objs = []
      by_cases hj : j < k
      · exact hs j hj
      · apply Classical.byContradiction
        intro hne
        have := (hh.used j hne).1
        omega
    · split
      · rename_i ho
        refine ⟨_, _, rfl, hput _ .tau (moved_go hh (.clean (k + 1)) hlen (by rw [hlv]; rfl) ?_)⟩
        intro j hj
        show (h.list j).objs = []
        by_cases hjk : j = k
        · subst hjk; exact ho
        · exact hs j (by omega)
      · rename_i ho
        refine ⟨_, _, rfl, hput _ .tau (release_moved hh (hh.used k ho) (List.length_pos_iff.mpr ho) ho hlv ?_ (fun _ => ⟨Nat.le_refl _, hs⟩))⟩
        intro j; rw [hst]; exact Nat.zero_le _
  · rename_i hst
    rw [hst] at hs
    obtain ⟨h1, h2⟩ := unlink_ok hi hf hs
    exact ⟨_, _, rfl, h1, h2⟩

theorem find_self {l : List Heap} {id : Nat} {h : Heap} (hf : find l id = some h) : find l h.id = some h := by
  rw [(find_mem hf).1]; exact hf

theorem arith {A B u u' o i L E : Nat} (h : A + u + o = B + u' + i) (hh : u' + i + L = u + o + E) : A + L = B + E := by omega

theorem step_ok {cfg : Cfg} (hc : cfg.OK) (hk : cfg.kMin < 2 ^ 63) {w : W} (hi : Inv cfg w) {e : Ev} (hp : Pre cfg w e) :
    ∃ w' out, step cfg w e = some (w', out) ∧ Inv cfg w' ∧
      (∀ x, (w'.objects cfg).count x + out.leaves.count x = (w.objects cfg).count x + (e.enters w).count x) := by
  cases e with
  | create id =>
    obtain ⟨w', e, h1, h2, _⟩ := newHeap_ok hc hi hp
    exact ⟨w', .created, by show (w.newHeap cfg id).map _ = _; rw [e]; rfl, h1, h2⟩
  | malloc id k =>
    obtain ⟨⟨h, hf, hst⟩, hu⟩ := hp
    have hh := hi.each h (find_mem hf).2
    show ∃ w' out, ((find w.heaps id).bind fun h => w.allocate cfg h k) = _ ∧ _
    rw [hf]
    show ∃ w' out, w.allocate cfg h k = _ ∧ _
    unfold W.allocate
    cases ho : (h.list k).objs with
    | nil =>
      rw [tryPop_nil ho]
      dsimp only
      rw [if_pos rfl]
      obtain ⟨h1, h2⟩ := put_ok' hi (find_self hf) (malloc_miss hh hst hu ho)
      exact ⟨_, _, rfl, h1, h2⟩
    | cons o r =>
      obtain ⟨e1, e2, e3⟩ := malloc_hit hh hst ho
      rw [e1]
      dsimp only
      rw [if_neg (by omega)]
      obtain ⟨h1, h2⟩ := put_ok hi (u := (k, o) :: w.user) (find_self hf) e3 (fun p hp => by
        rcases List.mem_cons.mp hp with rfl | hp
        · exact hu
        · exact hi.user p hp)
      refine ⟨_, _, rfl, h1, ?_⟩
      intro x
      refine arith (h2 x) ?_
      show ((k, o) :: w.user).count x + 0 + 0 = w.user.count x + [(k, o)].count x + 0
      rw [List.count_cons, List.count_cons, List.count_nil]; omega
  | free id k o =>
    obtain ⟨⟨h, hf, hst⟩, hm⟩ := hp
    have hh := hi.each h (find_mem hf).2
    have hu := hi.user _ hm
    show ∃ w' out, ((find w.heaps id).map fun h => w.deallocate cfg h k o) = _ ∧ _
    rw [hf]
    have hue : ∀ p ∈ w.user.erase (k, o), cfg.Used p.1 := fun p hp => hi.user p (List.mem_of_mem_erase hp)
    have hcnt : ∀ x, (w.user.erase (k, o)).count x + [(k, o)].count x = w.user.count x := by
      intro x
      have h1 : 0 < w.user.count (k, o) := List.count_pos_iff.mpr hm
      rw [List.count_erase, List.count_cons, List.count_nil]
      by_cases hx : x = (k, o)
      · subst hx; simp; omega
      · have h1 : ((k, o) == x) = false := by simpa using fun e => hx e.symm
        have h2 : (x == (k, o)) = false := by simpa using hx
        simp [h1]
    show ∃ w' out, some (w.deallocate cfg h k o) = _ ∧ _
    unfold W.deallocate
    dsimp only
    split
    · obtain ⟨h1, h2⟩ := put_ok hi (find_self hf) (free_moved (o := o) hh hst hu (.slow k) (.inl rfl)) hue
      refine ⟨_, _, rfl, h1, ?_⟩
      intro x
      refine arith (h2 x) ?_
      have h3 := hcnt x
      show (w.user.erase (k, o)).count x + [(k, o)].count x + 0 = w.user.count x + 0 + 0
      omega
    · rename_i hno
      rw [not_or] at hno
      have hlen : (h.list k).objs.length < (h.list k).maxLen := by
        have := hno.1
        simp only [FL.push, List.length_cons] at this
        omega
      have hid : { (h.setL k ((h.list k).push o)).go .idle with size := h.size + cfg.size k } =
          ({ h.setL k ((h.list k).push o) with size := h.size + cfg.size k } : Heap) := by
        unfold Heap.go Heap.setL; simp only [hst]
      have hmv := free_moved (o := o) hh hst hu .idle (.inr ⟨rfl, hlen⟩)
      rw [hid] at hmv
      obtain ⟨h1, h2⟩ := put_ok hi (find_self hf) hmv hue
      refine ⟨_, _, rfl, h1, ?_⟩
      intro x
      refine arith (h2 x) ?_
      have h3 := hcnt x
      show (w.user.erase (k, o)).count x + [(k, o)].count x + 0 = w.user.count x + 0 + 0
      omega
  | act id =>
    obtain ⟨h, hf⟩ := hp
    show ∃ w' out, ((find w.heaps id).bind fun h => stepH cfg w h) = _ ∧ _
    rw [hf]
    obtain ⟨w', out, e, h1, h2⟩ := stepH_ok hc hi (find_self hf)
    exact ⟨w', out, e, h1, h2⟩
  | fetched id l =>
    obtain ⟨h, k, n, hf, hst, hn, _⟩ := hp
    have hh := hi.each h (find_mem hf).2
    have hu : cfg.Used k := by have := hh.st; unfold StOK at this; rw [hst] at this; exact this.1
    have he : Ev.enters w (.fetched id l) = pairs k l := by
      show (match find w.heaps id with
        | some h => match h.st with | .fetch k _ => pairs k l | _ => []
        | none => []) = _
      rw [hf]; dsimp only; rw [hst]
    rw [he]
    have hstep : step cfg w (.fetched id l) = w.fetched cfg h k l := by
      show (match find w.heaps id with
        | some h => match h.st with | .fetch k _ => w.fetched cfg h k l | _ => none
        | none => none) = _
      rw [hf]; dsimp only; rw [hst]
    rw [hstep]
    cases l with
    | nil =>
      obtain ⟨h1, h2⟩ := put_ok' hi (find_self hf) (fetched_nil hh hst)
      exact ⟨_, _, rfl, h1, h2⟩
    | cons o r =>
      obtain ⟨f, e, hm⟩ := fetched_some hh hst hn
      unfold W.fetched
      dsimp only
      rw [e]
      obtain ⟨h1, h2⟩ := put_ok hi (u := (k, o) :: w.user) (find_self hf) hm (fun p hp => by
        rcases List.mem_cons.mp hp with rfl | hp
        · exact hu
        · exact hi.user p hp)
      refine ⟨_, _, rfl, h1, ?_⟩
      intro x
      refine arith (h2 x) ?_
      show ((k, o) :: w.user).count x + _ + 0 = w.user.count x + [(k, o)].count x + _
      rw [List.count_cons, List.count_cons, List.count_nil]; omega
  | delete id =>
    obtain ⟨h, hf, hst⟩ := hp
    have hh := hi.each h (find_mem hf).2
    show ∃ w' out, ((find w.heaps id).map fun h => (w.put (h.go (.clean 0)), Out.tau)) = _ ∧ _
    rw [hf]
    obtain ⟨h1, h2⟩ := put_ok' hi (find_self hf) (moved_go hh (.clean 0) (fun k => by have := hh.len k; rw [hst] at this; exact this)
      (by unfold Heap.leaving; rw [hst]; rfl) (fun j hj => absurd hj (by omega)))
    exact ⟨_, _, rfl, h1, h2⟩
  | direct k o =>
    refine ⟨_, _, rfl, { hi with user := fun p hp => hi.user p (List.mem_of_mem_erase hp) }, fun x => ?_⟩
    have h1 : 0 < w.user.count (k, o) := List.count_pos_iff.mpr hp
    rw [count_W, count_W]
    show (w.user.erase (k, o)).count x + _ + [(k, o)].count x = _ + 0
    rw [List.count_erase, List.count_cons, List.count_nil]
    by_cases hx : x = (k, o)
    · subst hx; simp; omega
    · have h1 : ((k, o) == x) = false := by simpa using fun e => hx e.symm
      simp [h1]
  | resize n scale =>
    obtain ⟨h1, h2⟩ := resize_ok hi n scale hp hk
    exact ⟨_, _, rfl, h1, h2⟩

theorem init_Inv {cfg : Cfg} (hc : cfg.OK) : Inv cfg (W.init cfg) :=
  ⟨.nil, nofun, by show (cfg.kDefault : Int) + ((0 : Nat) : Int) = _; show _ = (cfg.kDefault : Int); omega, nofun, hc.dflt, nofun⟩

theorem Reach.inv {cfg : Cfg} (hc : cfg.OK) (hk : cfg.kMin < 2 ^ 63) {w : W} (h : Reach cfg w) : Inv cfg w := by
  induction h with
  | init => exact init_Inv hc
  | step _ hp hs ih =>
    obtain ⟨w', out, e, h1, _⟩ := step_ok hc hk ih hp
    rw [e] at hs
    cases hs
    exact h1

end Verif.ThreadCache
