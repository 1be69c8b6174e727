import Verif.ThreadCache.Spec
/-! Sums over classes and caches; the invariant of a cache and its preservation by every step of its owner. -/
namespace Verif.ThreadCache

/-! ## Sums -/

theorem sum_upd (f g : Nat → Nat) (k : Nat) (h : ∀ j, j ≠ k → g j = f j) : ∀ n,
    ((List.range n).map g).sum + (if k < n then f k else 0) = ((List.range n).map f).sum + (if k < n then g k else 0) := by
  intro n
  induction n with
  | zero => simp
  | succ n ih =>
    simp only [List.range_succ, List.map_append, List.sum_append, List.map_cons, List.map_nil, List.sum_cons, List.sum_nil]
    by_cases hk : k < n
    · rw [h n (by omega)]; rw [if_pos hk, if_pos hk] at ih; rw [if_pos (by omega), if_pos (by omega)]; omega
    · rw [if_neg hk, if_neg hk] at ih
      by_cases hn : k = n
      · subst hn; rw [if_pos (by omega), if_pos (by omega)]; omega
      · rw [h n (by omega), if_neg (by omega), if_neg (by omega)]; omega

theorem count_objects (cfg : Cfg) (h : Heap) (x : Nat × Nat) :
    (h.objects cfg).count x = ((List.range cfg.nc).map fun k => (pairs k (h.list k).objs).count x).sum := by
  unfold Heap.objects
  rw [List.count_flatMap]
  rfl

theorem find_mem : ∀ {l : List Heap} {id : Nat} {h : Heap}, find l id = some h → h.id = id ∧ h ∈ l
  | a :: r, id, h, e => by
    unfold find at e
    split at e
    · rename_i hi; cases e; exact ⟨hi, .head _⟩
    · obtain ⟨h1, h2⟩ := find_mem e; exact ⟨h1, .tail _ h2⟩

theorem find_none : ∀ {l : List Heap} {id : Nat}, find l id = none → id ∉ l.map (·.id)
  | [], _, _ => by simp
  | a :: r, id, e => by
    unfold find at e
    split at e
    · cases e
    · rename_i hi
      simp only [List.map_cons, List.mem_cons, not_or]
      exact ⟨fun h => hi h.symm, find_none e⟩

theorem find_of_mem : ∀ {l : List Heap} {id : Nat}, id ∈ l.map (·.id) → ∃ h, find l id = some h
  | a :: r, id, e => by
    unfold find
    split
    · exact ⟨_, rfl⟩
    · rename_i hi
      simp only [List.map_cons, List.mem_cons] at e
      rcases e with e | e
      · exact absurd e.symm hi
      · exact find_of_mem e

theorem put_ids (l : List Heap) (h' : Heap) : (put l h').map (·.id) = l.map (·.id) := by
  unfold put
  rw [List.map_map]
  apply List.map_congr_left
  intro a _
  simp only [Function.comp]
  split
  · rename_i h; exact h.symm
  · rfl

theorem put_mem {l : List Heap} {h' x : Heap} (hx : x ∈ put l h') : x = h' ∨ x ∈ l := by
  unfold put at hx
  obtain ⟨a, ha, rfl⟩ := List.mem_map.mp hx
  split
  · exact .inl rfl
  · exact .inr ha

theorem find_put_ne {l : List Heap} {h' : Heap} {id : Nat} (hne : id ≠ h'.id) : find (put l h') id = find l id := by
  induction l with
  | nil => rfl
  | cons a r ih =>
    show find ((if a.id = h'.id then h' else a) :: put r h') id = find (a :: r) id
    unfold find
    by_cases ha : a.id = h'.id
    · rw [if_pos ha, if_neg (fun e => hne e.symm), if_neg (fun e => hne (by rw [← e, ha])), ih]
    · rw [if_neg ha, ih]

theorem put_absent {l : List Heap} {h' : Heap} (hn : h'.id ∉ l.map (·.id)) : put l h' = l := by
  induction l with
  | nil => rfl
  | cons a r ih =>
    simp only [List.map_cons, List.mem_cons, not_or] at hn
    show (if a.id = h'.id then h' else a) :: put r h' = a :: r
    rw [if_neg (fun e => hn.1 e.symm), ih hn.2]

theorem sum_put (F : Heap → Nat) {l : List Heap} {h h' : Heap} (hn : (l.map (·.id)).Nodup) (hf : find l h'.id = some h) :
    ((put l h').map F).sum + F h = (l.map F).sum + F h' := by
  induction l with
  | nil => cases hf
  | cons a r ih =>
    simp only [List.map_cons, List.nodup_cons] at hn
    unfold find at hf
    show (((if a.id = h'.id then h' else a) :: put r h').map F).sum + F h = _
    by_cases ha : a.id = h'.id
    · rw [if_pos ha] at hf
      cases hf
      rw [if_pos ha, put_absent (ha ▸ hn.1)]
      simp only [List.map_cons, List.sum_cons]
      omega
    · rw [if_neg ha] at hf
      have := ih hn.2 hf
      rw [if_neg ha]
      simp only [List.map_cons, List.sum_cons]
      omega

theorem after_mem : ∀ {l : List Heap} {id c : Nat}, after l id = some c → c ∈ l.map (·.id)
  | a :: r, id, c, e => by
    unfold after at e
    split at e
    · cases r with
      | nil => cases e
      | cons b r => cases e; simp
    · have := after_mem e
      simp only [List.map_cons, List.mem_cons]; exact .inr this

/-! ## The invariant of a cache -/

def St.extra (k : Nat) : St → Nat
  | .slow k' => if k' = k then 1 else 0
  | .rel k' n _ _ => if k' = k then n else 0
  | _ => 0

def StOK (cfg : Cfg) (h : Heap) : Prop :=
  match h.st with
  | .fetch k n => cfg.Used k ∧ (h.list k).objs = [] ∧ 1 ≤ n ∧ n ≤ cfg.batch k
  | .slow k => cfg.Used k
  | .rel k n m ret => cfg.Used k ∧ 1 ≤ n ∧ n ≤ m ∧ (n ≤ (h.list k).objs.length ∧ n ≤ kMaxDynamicFreeListLength + 1) ∧
      (ret = .clean → n = (h.list k).objs.length ∧ ∀ j, j < k → (h.list j).objs = [])
  | .clean k => ∀ j, j < k → (h.list j).objs = []
  | .unlink => ∀ j, (h.list j).objs = []
  | _ => True

structure HInv (cfg : Cfg) (h : Heap) : Prop where
  low : ∀ k, (h.list k).low ≤ (h.list k).objs.length
  maxl : ∀ k, 1 ≤ (h.list k).maxLen ∧ (h.list k).maxLen ≤ kMaxDynamicFreeListLength
  len : ∀ k, (h.list k).objs.length ≤ kMaxDynamicFreeListLength + h.st.extra k
  used : ∀ k, (h.list k).objs ≠ [] → cfg.Used k
  size : h.size = h.bytes cfg + h.leaving cfg
  st : StOK cfg h

/-- What a step of the owner changes: objects `ins` enter the cache and `outs` leave it. -/
structure Moved (cfg : Cfg) (h h' : Heap) (ins outs : List (Nat × Nat)) : Prop where
  id : h'.id = h.id
  max : h'.max = h.max
  inv : HInv cfg h'
  objs : ∀ x, (h'.objects cfg).count x + outs.count x = (h.objects cfg).count x + ins.count x

theorem setL_bytes {cfg : Cfg} (h : Heap) {k : Nat} (f : FL) (hk : k < cfg.nc) :
    (h.setL k f).bytes cfg + cfg.size k * (h.list k).objs.length = h.bytes cfg + cfg.size k * f.objs.length := by
  have := sum_upd (fun j => cfg.size j * (h.list j).objs.length) (fun j => cfg.size j * ((h.setL k f).list j).objs.length) k
    (fun j hj => by show _ * ((upd h.list k f) j).objs.length = _; rw [upd, if_neg hj]) cfg.nc
  rw [if_pos hk, if_pos hk] at this
  have e : ((h.setL k f).list k) = f := by show upd h.list k f k = f; rw [upd, if_pos rfl]
  rw [e] at this
  exact this

theorem setL_count {cfg : Cfg} (h : Heap) {k : Nat} (f : FL) (hk : k < cfg.nc) (x : Nat × Nat) :
    ((h.setL k f).objects cfg).count x + (pairs k (h.list k).objs).count x =
      (h.objects cfg).count x + (pairs k f.objs).count x := by
  rw [count_objects, count_objects]
  have := sum_upd (fun j => (pairs j (h.list j).objs).count x) (fun j => (pairs j ((h.setL k f).list j).objs).count x) k
    (fun j hj => by show (pairs j ((upd h.list k f) j).objs).count x = _; rw [upd, if_neg hj]) cfg.nc
  rw [if_pos hk, if_pos hk] at this
  have e : ((h.setL k f).list k) = f := by show upd h.list k f k = f; rw [upd, if_pos rfl]
  rw [e] at this
  exact this

theorem setL_same (h : Heap) (k : Nat) (f : FL) : (h.setL k f).list k = f := by
  show upd h.list k f k = f; rw [upd, if_pos rfl]

theorem setL_ne (h : Heap) {k j : Nat} (f : FL) (hj : j ≠ k) : (h.setL k f).list j = h.list j := by
  show upd h.list k f j = _; rw [upd, if_neg hj]

theorem pairs_count_append (k : Nat) (a b : List Nat) (x : Nat × Nat) :
    (pairs k (a ++ b)).count x = (pairs k a).count x + (pairs k b).count x := by
  unfold pairs; rw [List.map_append, List.count_append]

/-- Only the position of the owner changes. -/
theorem moved_go {cfg : Cfg} {h : Heap} (hi : HInv cfg h) (st : St) (hlen : ∀ k, (h.list k).objs.length ≤ kMaxDynamicFreeListLength + st.extra k)
    (hl : (h.go st).leaving cfg = h.leaving cfg) (hst : StOK cfg (h.go st)) : Moved cfg h (h.go st) [] [] :=
  ⟨rfl, rfl, ⟨hi.low, hi.maxl, hlen, hi.used, by show h.size = h.bytes cfg + _; rw [hl, hi.size], hst⟩, fun _ => rfl⟩

/-- One list changes, and the byte size and the position of the owner. -/
theorem moved_setL {cfg : Cfg} {h : Heap} (hi : HInv cfg h) {k : Nat} (hk : k < cfg.nc) (f : FL) (sz : Nat) (st : St)
    {ins outs : List (Nat × Nat)} (hlow : f.low ≤ f.objs.length)
    (hmax : 1 ≤ f.maxLen ∧ f.maxLen ≤ kMaxDynamicFreeListLength)
    (hlen : f.objs.length ≤ kMaxDynamicFreeListLength + st.extra k) (hext : ∀ j, j ≠ k → h.st.extra j ≤ st.extra j)
    (hused : f.objs ≠ [] → cfg.Used k)
    (hsize : sz + cfg.size k * (h.list k).objs.length + h.leaving cfg =
      h.size + cfg.size k * f.objs.length + ((h.setL k f).go st).leaving cfg)
    (hst : StOK cfg { (h.setL k f).go st with size := sz })
    (hobjs : ∀ x, (pairs k f.objs).count x + outs.count x = (pairs k (h.list k).objs).count x + ins.count x) :
    Moved cfg h { (h.setL k f).go st with size := sz } ins outs := by
  refine ⟨rfl, rfl, ⟨?_, ?_, ?_, ?_, ?_, hst⟩, ?_⟩
  · intro j
    show ((h.setL k f).list j).low ≤ ((h.setL k f).list j).objs.length
    by_cases hj : j = k
    · subst hj; rw [setL_same]; exact hlow
    · rw [setL_ne _ _ hj]; exact hi.low j
  · intro j
    show 1 ≤ ((h.setL k f).list j).maxLen ∧ ((h.setL k f).list j).maxLen ≤ _
    by_cases hj : j = k
    · subst hj; rw [setL_same]; exact hmax
    · rw [setL_ne _ _ hj]; exact hi.maxl j
  · intro j
    show ((h.setL k f).list j).objs.length ≤ _ + st.extra j
    by_cases hj : j = k
    · subst hj; rw [setL_same]; exact hlen
    · rw [setL_ne _ _ hj]; have := hi.len j; have := hext j hj; omega
  · intro j
    show ((h.setL k f).list j).objs ≠ [] → _
    by_cases hj : j = k
    · subst hj; rw [setL_same]; exact hused
    · rw [setL_ne _ _ hj]; exact hi.used j
  · have h1 := setL_bytes h f hk
    have h2 := hi.size
    show sz = (h.setL k f).bytes cfg + ((h.setL k f).go st).leaving cfg
    omega
  · intro x
    have h1 := setL_count h f hk x
    have h2 := hobjs x
    show ((h.setL k f).objects cfg).count x + _ = _
    omega

/-! ## The owner's steps -/

theorem tryPop_nil {f : FL} (h : f.objs = []) : f.tryPop = (f, none) := by
  unfold FL.tryPop; rw [h]

theorem malloc_hit {cfg : Cfg} {h : Heap} (hi : HInv cfg h) {k o : Nat} {r : List Nat} (hst : h.st = .idle) (ho : (h.list k).objs = o :: r) :
    (h.list k).tryPop = ({ h.list k with objs := r, low := if r.length < (h.list k).low then r.length else (h.list k).low }, some o) ∧
    cfg.size k ≤ h.size ∧
    Moved cfg h { h.setL k { h.list k with objs := r, low := if r.length < (h.list k).low then r.length else (h.list k).low } with
      size := h.size - cfg.size k } [] [(k, o)] := by
  have hu := hi.used k (by rw [ho]; simp)
  have hlen := hi.len k
  rw [hst, ho] at hlen
  have hb : cfg.size k ≤ h.size := by
    have h1 := setL_bytes (cfg := cfg) h { h.list k with objs := [] } hu.1
    have h2 := hi.size
    rw [ho] at h1
    simp only [List.length_cons, List.length_nil, Nat.mul_zero, Nat.mul_add, Nat.mul_one] at h1
    omega
  refine ⟨by unfold FL.tryPop; rw [ho], hb, ?_⟩
  have e : h.setL k { h.list k with objs := r, low := if r.length < (h.list k).low then r.length else (h.list k).low } =
      (h.setL k { h.list k with objs := r, low := if r.length < (h.list k).low then r.length else (h.list k).low }).go .idle := by
    unfold Heap.go Heap.setL; rw [hst]
  rw [e]
  apply moved_setL hi hu.1
  · show (if r.length < (h.list k).low then r.length else (h.list k).low) ≤ r.length
    split <;> omega
  · exact hi.maxl k
  · simp only [List.length_cons] at hlen
    show r.length ≤ _
    simp only [St.extra] at hlen ⊢
    omega
  · intro j _; rw [hst]; exact Nat.le_refl _
  · intro _; exact hu
  · rw [ho]
    have : h.leaving cfg = 0 := by unfold Heap.leaving; rw [hst]
    rw [this]
    show h.size - cfg.size k + cfg.size k * (r.length + 1) + 0 = h.size + cfg.size k * r.length + 0
    rw [Nat.mul_add]; omega
  · trivial
  · intro x
    rw [ho]
    show (pairs k r).count x + [(k, o)].count x = (pairs k (o :: r)).count x + 0
    show _ = ((k, o) :: pairs k r).count x + 0
    rw [List.count_cons, List.count_cons, List.count_nil]; omega

theorem malloc_miss {cfg : Cfg} {h : Heap} (hi : HInv cfg h) {k : Nat} (hst : h.st = .idle) (hu : cfg.Used k) (ho : (h.list k).objs = []) :
    Moved cfg h (h.go (.fetch k (min (h.list k).maxLen (cfg.batch k)))) [] [] := by
  apply moved_go hi
  · intro j; have := hi.len j; rw [hst] at this; exact this
  · unfold Heap.leaving; rw [hst]; rfl
  · have := (hi.maxl k).1
    have := hu.2.2.1
    exact ⟨hu, ho, by show 1 ≤ min _ _; omega, by show min _ _ ≤ _; omega⟩

theorem fetched_defined {cfg : Cfg} (f : FL) {k : Nat} (hu : cfg.Used k) (hm : 1 ≤ f.maxLen ∧ f.maxLen ≤ kMaxDynamicFreeListLength) :
    ∃ f', f.fetched (cfg.batch k) = some f' ∧ f'.objs = f.objs ∧ f'.low = f.low ∧ 1 ≤ f'.maxLen ∧
      f'.maxLen ≤ kMaxDynamicFreeListLength := by
  have h1 := hu.2.2.1
  have h2 := hu.2.2.2
  unfold kMaxDynamicFreeListLength at *
  unfold kMaxObjectsToMove at h2
  unfold FL.fetched
  split
  · exact ⟨_, rfl, rfl, rfl, by show 1 ≤ f.maxLen + 1; omega, by show f.maxLen + 1 ≤ _; omega⟩
  · rw [if_neg (by omega)]
    refine ⟨_, rfl, rfl, rfl, ?_, ?_⟩
    · show 1 ≤ min (f.maxLen + cfg.batch k) kMaxDynamicFreeListLength - _ % _
      unfold kMaxDynamicFreeListLength
      have := Nat.mod_lt (min (f.maxLen + cfg.batch k) 8192) h1
      omega
    · show min (f.maxLen + cfg.batch k) kMaxDynamicFreeListLength - _ % _ ≤ _
      unfold kMaxDynamicFreeListLength
      omega

theorem fetched_some {cfg : Cfg} {h : Heap} (hi : HInv cfg h) {k n o : Nat} {r : List Nat} (hst : h.st = .fetch k n) (hn : (o :: r).length ≤ n) :
    ∃ f, ({ h.list k with objs := r ++ (h.list k).objs } : FL).fetched (cfg.batch k) = some f ∧
      Moved cfg h { (h.setL k f).go .idle with size := h.size + cfg.size k * r.length } (pairs k (o :: r)) [(k, o)] := by
  have hs := hi.st
  unfold StOK at hs
  rw [hst] at hs
  obtain ⟨hu, ho, _, hb⟩ := hs
  obtain ⟨f, hf, h1, h2, h3⟩ := fetched_defined (cfg := cfg) (k := k) { h.list k with objs := r ++ (h.list k).objs } hu (hi.maxl k)
  refine ⟨f, hf, ?_⟩
  rw [ho, List.append_nil] at h1
  have hl := hi.low k
  rw [ho] at hl
  simp only [List.length_cons] at hn
  have hbb := hu.2.2.2
  unfold kMaxObjectsToMove at hbb
  apply moved_setL hi hu.1
  · rw [h2]; simp only [List.length_nil] at hl; show (h.list k).low ≤ _; omega
  · exact h3
  · rw [h1]; show r.length ≤ 8192 + 0; omega
  · intro j _; rw [hst]; exact Nat.le_refl _
  · intro _; exact hu
  · rw [ho, h1]
    have : h.leaving cfg = 0 := by unfold Heap.leaving; rw [hst]
    rw [this]
    show h.size + cfg.size k * r.length + cfg.size k * 0 + 0 = h.size + cfg.size k * r.length + 0
    omega
  · trivial
  · intro x
    rw [ho, h1]
    show (pairs k r).count x + [(k, o)].count x = 0 + ((k, o) :: pairs k r).count x
    rw [List.count_cons, List.count_cons, List.count_nil]; omega

theorem fetched_nil {cfg : Cfg} {h : Heap} (hi : HInv cfg h) {k n : Nat} (hst : h.st = .fetch k n) : Moved cfg h (h.go .idle) [] [] := by
  apply moved_go hi
  · intro j; have := hi.len j; rw [hst] at this; exact this
  · unfold Heap.leaving; rw [hst]; rfl
  · trivial

theorem free_moved {cfg : Cfg} {h : Heap} (hi : HInv cfg h) {k o : Nat} (hst : h.st = .idle) (hu : cfg.Used k) (st : St)
    (hs : st = .slow k ∨ (st = .idle ∧ (h.list k).objs.length < (h.list k).maxLen)) :
    Moved cfg h { (h.setL k ((h.list k).push o)).go st with size := h.size + cfg.size k } [(k, o)] [] := by
  have hl := hi.len k
  rw [hst] at hl
  simp only [St.extra] at hl
  apply moved_setL hi hu.1
  · have := hi.low k
    show (h.list k).low ≤ (o :: (h.list k).objs).length
    rw [List.length_cons]; omega
  · exact hi.maxl k
  · show (o :: (h.list k).objs).length ≤ _
    rw [List.length_cons]
    rcases hs with rfl | ⟨rfl, hs⟩
    · simp only [St.extra, if_pos]; omega
    · have := (hi.maxl k).2; omega
  · intro j _; rw [hst]; exact Nat.zero_le _
  · intro _; exact hu
  · have e1 : h.leaving cfg = 0 := by unfold Heap.leaving; rw [hst]
    have e2 : ((h.setL k ((h.list k).push o)).go st).leaving cfg = 0 := by
      rcases hs with rfl | ⟨rfl, hs⟩ <;> rfl
    rw [e1, e2]
    show h.size + cfg.size k + _ + 0 = h.size + cfg.size k * ((h.list k).objs.length + 1) + 0
    rw [Nat.mul_add]; omega
  · rcases hs with rfl | ⟨rfl, hs⟩
    · exact hu
    · trivial
  · intro x
    show ((k, o) :: pairs k (h.list k).objs).count x + 0 = _
    rw [List.count_cons, List.count_cons, List.count_nil]; omega

theorem tooLong_fields (f : FL) {b : Nat} (hb : 1 ≤ b) (hb2 : b ≤ 128) (hm : 1 ≤ f.maxLen ∧ f.maxLen ≤ kMaxDynamicFreeListLength) :
    (f.tooLong b).objs = f.objs ∧ (f.tooLong b).low = f.low ∧ 1 ≤ (f.tooLong b).maxLen ∧
      (f.tooLong b).maxLen ≤ kMaxDynamicFreeListLength := by
  unfold FL.tooLong
  unfold kMaxDynamicFreeListLength at *
  split
  · refine ⟨rfl, rfl, ?_, ?_⟩
    · show 1 ≤ f.maxLen + 1; omega
    · show f.maxLen + 1 ≤ _; omega
  · split
    · split
      · refine ⟨rfl, rfl, ?_, ?_⟩
        · show 1 ≤ f.maxLen - b; omega
        · show f.maxLen - b ≤ _; omega
      · exact ⟨rfl, rfl, hm⟩
    · exact ⟨rfl, rfl, hm⟩

theorem scavenged_fields (f : FL) {b : Nat} (hb : 1 ≤ b) (hm : 1 ≤ f.maxLen ∧ f.maxLen ≤ kMaxDynamicFreeListLength) :
    (f.scavenged b).objs = f.objs ∧ 1 ≤ (f.scavenged b).maxLen ∧ (f.scavenged b).maxLen ≤ kMaxDynamicFreeListLength := by
  unfold FL.scavenged
  unfold kMaxDynamicFreeListLength at *
  split
  · refine ⟨rfl, ?_, ?_⟩
    · show 1 ≤ max (f.maxLen - b) b; omega
    · show max (f.maxLen - b) b ≤ _; omega
  · exact ⟨rfl, hm⟩

/-- The last iteration of a release. -/
theorem ret_moved {cfg : Cfg} {h : Heap} (hi : HInv cfg h) {k n m : Nat} {ret : Ret} (hst : h.st = .rel k n m ret)
    (hn : n ≤ cfg.batch k) {f : FL} (ho : f.objs = (h.list k).objs.drop n) (hlow : f.low ≤ f.objs.length)
    (hmax : f.maxLen = (h.list k).maxLen) :
    m * cfg.size k ≤ h.size ∧
    Moved cfg h (Heap.ret cfg { h.setL k f with size := h.size - m * cfg.size k } k ret) [] (pairs k ((h.list k).objs.take n)) := by
  have hs := hi.st
  unfold StOK at hs
  rw [hst] at hs
  obtain ⟨hu, h1, hnm, ⟨hnl, hnk⟩, hc⟩ := hs
  have hb1 := hu.2.2.1
  have hb2 := hu.2.2.2
  unfold kMaxObjectsToMove at hb2
  have hlen := hi.len k
  rw [hst] at hlen
  simp only [St.extra, if_pos] at hlen
  have hfl : f.objs.length = (h.list k).objs.length - n := by rw [ho, List.length_drop]
  have hleav : h.leaving cfg = (m - n) * cfg.size k := by unfold Heap.leaving; rw [hst]
  have hsz : m * cfg.size k ≤ h.size := by
    have e1 := setL_bytes (cfg := cfg) h { h.list k with objs := [] } hu.1
    simp only [List.length_nil, Nat.mul_zero] at e1
    have e2 := hi.size
    have e3 : cfg.size k * n ≤ cfg.size k * (h.list k).objs.length := Nat.mul_le_mul_left _ hnl
    have e4 : (m - n) * cfg.size k + cfg.size k * n = m * cfg.size k := by
      rw [Nat.mul_comm (cfg.size k) n, ← Nat.add_mul]; congr 1; omega
    omega
  refine ⟨hsz, ?_⟩
  have hext : ∀ j, j ≠ k → h.st.extra j ≤ 0 := by
    intro j hj; rw [hst]; simp only [St.extra, if_neg (Ne.symm hj)]; exact Nat.le_refl _
  have hm0 := hi.maxl k
  have hsize : ∀ (g : FL), g.objs = f.objs → h.size - m * cfg.size k + cfg.size k * (h.list k).objs.length + h.leaving cfg =
      h.size + cfg.size k * g.objs.length + 0 := by
    intro g hg
    rw [hg, hfl, hleav]
    have e4 : (m - n) * cfg.size k + cfg.size k * n = m * cfg.size k := by
      rw [Nat.mul_comm (cfg.size k) n, ← Nat.add_mul]; congr 1; omega
    have e5 : cfg.size k * (h.list k).objs.length = cfg.size k * ((h.list k).objs.length - n) + cfg.size k * n := by
      rw [← Nat.mul_add]; congr 1; omega
    omega
  have hobjs : ∀ (g : FL), g.objs = f.objs → ∀ x, (pairs k g.objs).count x + (pairs k ((h.list k).objs.take n)).count x =
      (pairs k (h.list k).objs).count x + ([] : List (Nat × Nat)).count x := by
    intro g hg x
    rw [hg, ho]
    have := pairs_count_append k ((h.list k).objs.take n) ((h.list k).objs.drop n) x
    rw [List.take_append_drop] at this
    rw [List.count_nil]; omega
  have hset : ∀ (g : FL) (st : St), { (({ h.setL k f with size := h.size - m * cfg.size k } : Heap).setL k g).go st with
      size := h.size - m * cfg.size k } = { (h.setL k g).go st with size := h.size - m * cfg.size k } := by
    intro g st
    unfold Heap.setL Heap.go
    have : upd (upd h.list k f) k g = upd h.list k g := by
      funext j; unfold upd; split <;> rfl
    simp only [this]
  cases ret with
  | tooLong =>
    obtain ⟨a1, a2, a3, a4⟩ := tooLong_fields f hb1 hb2 (by rw [hmax]; exact hm0)
    have e : Heap.ret cfg { h.setL k f with size := h.size - m * cfg.size k } k .tooLong =
        { (h.setL k (f.tooLong (cfg.batch k))).go .check with size := h.size - m * cfg.size k } := by
      rw [← hset]
      unfold Heap.ret
      show ((({ h.setL k f with size := h.size - m * cfg.size k } : Heap).setL k (FL.tooLong ((h.setL k f).list k) _)).go _) = _
      rw [setL_same]; rfl
    rw [e]
    apply moved_setL hi hu.1
    · rw [a1, a2]; exact hlow
    · exact ⟨a3, a4⟩
    · rw [a1]; omega
    · exact hext
    · intro _; exact hu
    · exact hsize _ a1
    · trivial
    · exact hobjs _ a1
  | scav =>
    obtain ⟨a1, a3, a4⟩ := scavenged_fields f hb1 (by rw [hmax]; exact hm0)
    have e : Heap.ret cfg { h.setL k f with size := h.size - m * cfg.size k } k .scav =
        { (h.setL k (f.scavenged (cfg.batch k)).clearLow).go (.scav (k + 1)) with size := h.size - m * cfg.size k } := by
      rw [← hset]
      unfold Heap.ret
      show ((({ h.setL k f with size := h.size - m * cfg.size k } : Heap).setL k (FL.clearLow (FL.scavenged ((h.setL k f).list k) _))).go _) = _
      rw [setL_same]; rfl
    rw [e]
    apply moved_setL hi hu.1
    · exact Nat.le_refl _
    · exact ⟨a3, a4⟩
    · show (f.scavenged (cfg.batch k)).objs.length ≤ _; rw [a1]; omega
    · exact hext
    · intro _; exact hu
    · exact hsize _ a1
    · trivial
    · exact hobjs _ a1
  | clean =>
    have e : Heap.ret cfg { h.setL k f with size := h.size - m * cfg.size k } k .clean =
        { (h.setL k f).go (.clean (k + 1)) with size := h.size - m * cfg.size k } := rfl
    rw [e]
    obtain ⟨c1, c2⟩ := hc rfl
    apply moved_setL hi hu.1
    · exact hlow
    · rw [hmax]; exact hm0
    · omega
    · exact hext
    · intro _; exact hu
    · exact hsize _ rfl
    · intro j hj
      show ((h.setL k f).list j).objs = []
      by_cases hjk : j = k
      · subst hjk; rw [setL_same]; exact List.length_eq_zero_iff.mp (by omega)
      · rw [setL_ne _ _ hjk]; exact c2 j (by omega)
    · exact hobjs _ rfl

/-- Every iteration of a release. -/
theorem rel_moved {cfg : Cfg} {h : Heap} (hi : HInv cfg h) {k n m : Nat} {ret : Ret} (hst : h.st = .rel k n m ret) :
    ∃ h' l, h.relStep cfg k n m ret = some (h', l) ∧ Moved cfg h h' [] (pairs k l) ∧ l ≠ [] ∧ l.length ≤ cfg.batch k ∧ cfg.Used k := by
  have hs := hi.st
  unfold StOK at hs
  rw [hst] at hs
  obtain ⟨hu, h1, hnm, ⟨hnl, hnk⟩, hc⟩ := hs
  have hb1 := hu.2.2.1
  have hb2 := hu.2.2.2
  have hlow := hi.low k
  unfold Heap.relStep FL.popBatch
  rw [if_neg (by omega)]
  dsimp only
  have htl : ((h.list k).objs.take (min n (cfg.batch k))).length = min n (cfg.batch k) := by rw [List.length_take]; omega
  have htn : (h.list k).objs.take (min n (cfg.batch k)) ≠ [] := by
    intro e; rw [e, List.length_nil] at htl; omega
  rw [if_neg (by rw [htl]; intro hor; rcases hor with e | e; exact htn e; omega)]
  have hlo : (if ((h.list k).objs.drop (min n (cfg.batch k))).length < (h.list k).low then ((h.list k).objs.drop (min n (cfg.batch k))).length
      else (h.list k).low) ≤ ((h.list k).objs.drop (min n (cfg.batch k))).length := by split <;> omega
  by_cases hbn : cfg.batch k < n
  · rw [if_pos hbn]
    have hmn : min n (cfg.batch k) = cfg.batch k := by omega
    rw [hmn] at htl htn hlo ⊢
    refine ⟨_, _, rfl, ?_, htn, by omega, hu⟩
    have hlen := hi.len k
    rw [hst] at hlen
    simp only [St.extra, if_pos] at hlen
    have e := moved_setL hi (ins := []) (outs := pairs k ((h.list k).objs.take (cfg.batch k))) hu.1
      { h.list k with objs := (h.list k).objs.drop (cfg.batch k), low := if ((h.list k).objs.drop (cfg.batch k)).length < (h.list k).low then
        ((h.list k).objs.drop (cfg.batch k)).length else (h.list k).low } h.size (.rel k (n - cfg.batch k) m ret) hlo (hi.maxl k)
      (by show ((h.list k).objs.drop (cfg.batch k)).length ≤ _
          rw [List.length_drop]; simp only [St.extra, if_pos]; omega)
      (by intro j hj; rw [hst]; simp only [St.extra, if_neg (Ne.symm hj)]; exact Nat.le_refl _)
      (fun _ => hu)
      (by show h.size + cfg.size k * (h.list k).objs.length + h.leaving cfg =
            h.size + cfg.size k * ((h.list k).objs.drop (cfg.batch k)).length + (m - (n - cfg.batch k)) * cfg.size k
          rw [List.length_drop]
          have e1 : h.leaving cfg = (m - n) * cfg.size k := by unfold Heap.leaving; rw [hst]
          have e2 : (m - (n - cfg.batch k)) * cfg.size k = (m - n) * cfg.size k + cfg.size k * cfg.batch k := by
            rw [Nat.mul_comm (cfg.size k) (cfg.batch k), ← Nat.add_mul]; congr 1; omega
          have e3 : cfg.size k * (h.list k).objs.length = cfg.size k * ((h.list k).objs.length - cfg.batch k) + cfg.size k * cfg.batch k := by
            rw [← Nat.mul_add]; congr 1; omega
          omega)
      (by
        show StOK cfg _
        unfold StOK
        show cfg.Used k ∧ 1 ≤ n - cfg.batch k ∧ n - cfg.batch k ≤ m ∧ (_ ≤ ((h.setL k _).list k).objs.length ∧ _) ∧ (ret = .clean →
          n - cfg.batch k = ((h.setL k _).list k).objs.length ∧ ∀ j, j < k → ((h.setL k _).list j).objs = [])
        rw [setL_same]
        refine ⟨hu, by omega, by omega, ⟨?_, by omega⟩, ?_⟩
        · show _ ≤ ((h.list k).objs.drop _).length
          rw [List.length_drop]; omega
        · intro hr
          obtain ⟨c1, c2⟩ := hc hr
          refine ⟨?_, ?_⟩
          · show _ = ((h.list k).objs.drop _).length
            rw [List.length_drop]; omega
          · intro j hj; rw [setL_ne _ _ (by omega)]; exact c2 j hj)
      (by
        intro x
        have := pairs_count_append k ((h.list k).objs.take (cfg.batch k)) ((h.list k).objs.drop (cfg.batch k)) x
        rw [List.take_append_drop] at this
        rw [List.count_nil]
        show (pairs k ((h.list k).objs.drop _)).count x + _ = _
        omega)
    exact e
  · rw [if_neg hbn]
    have hmn : min n (cfg.batch k) = n := by omega
    rw [hmn] at htl htn hlo ⊢
    obtain ⟨a, b⟩ := ret_moved hi hst (by omega) (f := { h.list k with objs := (h.list k).objs.drop n, low :=
        if ((h.list k).objs.drop n).length < (h.list k).low then ((h.list k).objs.drop n).length else (h.list k).low }) rfl hlo rfl
    rw [if_neg (by omega)]
    exact ⟨_, _, rfl, b, htn, by omega, hu⟩

/-- The start of a release. -/
theorem release_moved {cfg : Cfg} {h : Heap} (hi : HInv cfg h) {k n : Nat} {ret : Ret} (hu : cfg.Used k) (hn : 1 ≤ n)
    (ho : (h.list k).objs ≠ []) (hl : h.leaving cfg = 0) (hext : ∀ j, h.st.extra j ≤ if k = j then 1 else 0)
    (hr : ret = .clean → (h.list k).objs.length ≤ n ∧ ∀ j, j < k → (h.list j).objs = []) :
    Moved cfg h (h.release k n ret) [] [] := by
  have hp : 1 ≤ (h.list k).objs.length := List.length_pos_iff.mpr ho
  apply moved_go hi
  · intro j
    have := hi.len j
    have := hext j
    simp only [St.extra]
    split
    · rename_i hj; rw [if_pos hj] at this; subst hj; omega
    · rename_i hj; rw [if_neg hj] at this; omega
  · rw [hl]
    show (min n (h.list k).objs.length - min n (h.list k).objs.length) * _ = 0
    rw [Nat.sub_self, Nat.zero_mul]
  · refine ⟨hu, by omega, Nat.le_refl _, ⟨?_, ?_⟩, ?_⟩
    · show min n (h.list k).objs.length ≤ (h.list k).objs.length
      omega
    · have := hi.len k
      have h2 := hext k
      rw [if_pos rfl] at h2
      omega
    · intro e
      obtain ⟨h1, h2⟩ := hr e
      exact ⟨by show min n (h.list k).objs.length = (h.list k).objs.length; omega, h2⟩

end Verif.ThreadCache
