import Verif.TimeSeries.Lemmas
/-! The slots of a tracker hold the latest epochs of the history. -/
namespace Verif.TimeSeries
variable {T S : Type}

/-- The history by epochs, newest first, and in each epoch newest first. -/
def groups : Log S → List (Nat × List S)
  | [] => []
  | (e, v) :: l =>
    match groups l with
    | [] => [(e, v.toList)]
    | (e0, vs) :: r => if e = e0 then (e0, v.toList ++ vs) :: r else (e, v.toList) :: (e0, vs) :: r

def pay (ops : Ops T S) (vs : List S) : T := vs.foldr (fun v p => ops.report p v) ops.nil

def toE (ops : Ops T S) : List (Nat × List S) → List (Entry T)
  | [] => []
  | [g] => [⟨1, pay ops g.2⟩]
  | g :: g' :: r => ⟨g.1 - g'.1, pay ops g.2⟩ :: toE ops (g' :: r)

structure Inv (K : Nat) (ops : Ops T S) (s : Tr T) (l : Log S) : Prop where
  cur : s.cur < K
  head : (groups l).head?.map Prod.fst = some s.last
  desc : (groups l).Pairwise (fun a b => b.1 < a.1)
  ring : ring K s = (toE ops (groups l) ++ List.replicate K (Entry.mk 0 ops.nil)).take K
  covered : s.covered = dsum (TimeSeries.ring K s)

theorem toE_length {ops : Ops T S} : ∀ g, (toE ops g).length = g.length
  | [] => rfl
  | [_] => rfl
  | g :: g' :: r => by simp [toE, toE_length (g' :: r)]

theorem ring_init {K : Nat} {ops : Ops T S} {e : Nat} (hK : 0 < K) :
    ring K (init ops e) = ⟨1, ops.nil⟩ :: List.replicate (K - 1) ⟨0, ops.nil⟩ := by
  apply List.ext_getElem?
  intro i
  rcases Nat.lt_or_ge i K with h | h
  · rw [ring_get h]
    cases i with
    | zero =>
      have : (0 + K - 0) % K = 0 := by simp
      simp [init]
    | succ i =>
      have : (K - (i + 1)) % K = K - (i + 1) := Nat.mod_eq_of_lt (by omega)
      simp only [init, Nat.zero_add, this, List.getElem?_cons_succ]
      rw [if_neg (by omega), List.getElem?_replicate, if_pos (by omega)]
  · rw [List.getElem?_eq_none (by rw [ring_length]; exact h), List.getElem?_eq_none (by simp; omega)]

/-- Advancing the clock puts a new slot before the others, the oldest of which is dropped. -/
theorem ring_advance {K : Nat} {s : Tr T} (hc : s.cur < K) {x : Entry T} {last cov : Nat} :
    let cur := if s.cur + 1 = K then 0 else s.cur + 1
    ring K { entries := fun i => if i = cur then x else s.entries i, last := last, cur := cur, covered := cov : Tr T } =
      x :: (ring K s).take (K - 1) ∧ (ring K s)[K - 1]? = some (s.entries cur) := by
  intro cur
  have hcl : cur < K := by dsimp only [cur]; split <;> omega
  constructor
  · apply List.ext_getElem?
    intro i
    rcases Nat.lt_or_ge i K with h | h
    · rw [ring_get h]
      cases i with
      | zero =>
        have : (cur + K - 0) % K = cur := by rw [Nat.sub_zero, Nat.add_mod_right, Nat.mod_eq_of_lt hcl]
        rw [this]
        dsimp only
        rw [if_pos rfl]; rfl
      | succ i =>
        rw [List.getElem?_cons_succ, List.getElem?_take, if_pos (by omega), ring_get (by omega)]
        dsimp only
        have e1 : (cur + K - (i + 1)) % K = (s.cur + K - i) % K := by
          dsimp only [cur]
          split
          · rename_i hK
            rw [show s.cur + K - i = 0 + K - (i + 1) + K from by omega, Nat.add_mod_right]
          · rw [show s.cur + 1 + K - (i + 1) = s.cur + K - i from by omega]
        have e2 : (s.cur + K - i) % K ≠ cur := by
          have e3 : (s.cur + K - i) % K = if s.cur < i then s.cur + K - i else s.cur - i := by
            split
            · exact Nat.mod_eq_of_lt (by omega)
            · rw [show s.cur + K - i = s.cur - i + K from by omega, Nat.add_mod_right, Nat.mod_eq_of_lt (by omega)]
          rw [e3]
          dsimp only [cur]
          split <;> split <;> omega
        rw [e1, if_neg e2]
    · rw [List.getElem?_eq_none (by rw [ring_length]; exact h), List.getElem?_eq_none (by simp [ring_length]; omega)]
  · rw [ring_get (by omega)]
    congr 2
    dsimp only [cur]
    split
    · rename_i hK
      rw [show s.cur + K - (K - 1) = 0 + K from by omega, Nat.add_mod_right, Nat.mod_eq_of_lt (by omega)]
    · rw [show s.cur + K - (K - 1) = s.cur + 1 from by omega, Nat.mod_eq_of_lt (by omega)]

theorem ring_modify {K : Nat} {s : Tr T} (hc : s.cur < K) {f : Entry T → Entry T} :
    ring K { s with entries := fun i => if i = s.cur then f (s.entries i) else s.entries i } =
      match ring K s with | [] => [] | x :: r => f x :: r := by
  have hcons : ring K s = s.entries s.cur :: (ring K s).tail := by
    have h0 := ring_get (s := s) (show 0 < K by omega)
    rw [Nat.sub_zero, Nat.add_mod_right, Nat.mod_eq_of_lt hc] at h0
    cases h : ring K s with
    | nil => rw [h] at h0; cases h0
    | cons a r => rw [h] at h0; simp at h0; rw [← h0]; rfl
  rw [hcons]
  dsimp only
  apply List.ext_getElem?
  intro i
  rcases Nat.lt_or_ge i K with h | h
  · rw [ring_get h]
    cases i with
    | zero =>
      rw [Nat.sub_zero, Nat.add_mod_right, Nat.mod_eq_of_lt hc]
      simp
    | succ i =>
      rw [List.getElem?_cons_succ, List.getElem?_tail, ring_get h]
      dsimp only
      have e2 : (s.cur + K - (i + 1)) % K ≠ s.cur := by
        have e3 : (s.cur + K - (i + 1)) % K = if s.cur < i + 1 then s.cur + K - (i + 1) else s.cur - (i + 1) := by
          split
          · exact Nat.mod_eq_of_lt (by omega)
          · rw [show s.cur + K - (i + 1) = s.cur - (i + 1) + K from by omega, Nat.add_mod_right, Nat.mod_eq_of_lt (by omega)]
        rw [e3]
        split <;> omega
      rw [if_neg e2]
  · rw [List.getElem?_eq_none (by rw [ring_length]; exact h), List.getElem?_eq_none (by simp [ring_length]; omega)]

theorem groups_head {l : Log S} : (groups l).head?.map Prod.fst = l.head?.map Prod.fst := by
  cases l with
  | nil => rfl
  | cons x l =>
    obtain ⟨e, v⟩ := x
    unfold groups
    split
    · rfl
    · split
      · rename_i h; simp [h]
      · rfl

/-- The history after an event, by epochs. -/
theorem groups_push {l : Log S} {g : Nat × List S} {r : List (Nat × List S)} (h : groups l = g :: r) (e : Nat) (v : Option S) :
    groups (push l (e, v)) = if e < g.1 then [(e, v.toList)] else if e = g.1 then (g.1, v.toList ++ g.2) :: r else (e, v.toList) :: g :: r := by
  have hh := groups_head (l := l)
  cases l with
  | nil => cases h
  | cons x l =>
    rw [h] at hh
    simp at hh
    unfold push
    dsimp only
    rw [← hh]
    split
    · rfl
    · rw [groups, h]

theorem updateClock_inv {K : Nat} {ops : Ops T S} {s : Tr T} {l : Log S} (hK : 0 < K) (hI : Inv K ops s l) (e : Nat) :
    ∃ s', updateClock K ops s e = some (decide (s.last < e), s') ∧ Inv K ops s' (push l (e, none)) := by
  obtain ⟨h1, h2, h3, h4, h5⟩ := hI
  cases hg : groups l with
  | nil => rw [hg] at h2; cases h2
  | cons g r =>
    rw [hg] at h2 h3 h4
    simp at h2
    have hp := groups_push hg e none
    rw [h2] at hp
    unfold updateClock
    by_cases hlt : e < s.last
    · rw [if_pos hlt]
      rw [if_pos hlt] at hp
      refine ⟨init ops e, by simp; omega, ?_, ?_, ?_, ?_, ?_⟩
      · exact hK
      · rw [hp]; rfl
      · rw [hp]; simp
      · rw [ring_init hK, hp]
        obtain ⟨k, rfl⟩ : ∃ k, K = k + 1 := ⟨K - 1, by omega⟩
        simp only [toE, pay, Option.toList, List.foldr_nil, List.cons_append, List.nil_append, List.take_succ_cons, Nat.add_sub_cancel]
        rw [List.take_replicate]
        congr 2
        omega
      · rw [ring_init hK]
        simp [init, dsum]
    · rw [if_neg hlt]
      rw [if_neg hlt] at hp
      by_cases heq : e = s.last
      · rw [if_pos heq]
        rw [if_pos heq] at hp
        have hp' : groups (push l (e, none)) = g :: r := by rw [hp]; simp [← h2]
        refine ⟨s, by simp; omega, h1, ?_, ?_, ?_, h5⟩
        · rw [hp']; simp [h2]
        · rw [hp']; exact h3
        · rw [hp']; exact h4
      · rw [if_neg heq]
        rw [if_neg heq] at hp
        obtain ⟨a1, a2⟩ := ring_advance (s := s) h1 (x := ⟨e - s.last, ops.nil⟩) (last := e)
          (cov := s.covered - (s.entries (if s.cur + 1 = K then 0 else s.cur + 1)).delta + (e - s.last))
        -- the ring is its newer part and the oldest slot
        have hsplit : ring K s = (ring K s).take (K - 1) ++ [s.entries (if s.cur + 1 = K then 0 else s.cur + 1)] := by
          have := List.take_append_drop (K - 1) (ring K s)
          rw [List.drop_eq_getElem_cons (by rw [ring_length]; omega)] at this
          rw [List.drop_eq_nil_of_le (by rw [ring_length]; omega)] at this
          have hx : (ring K s)[K - 1]'(by rw [ring_length]; omega) = s.entries (if s.cur + 1 = K then 0 else s.cur + 1) := by
            rw [List.getElem?_eq_getElem (by rw [ring_length]; omega)] at a2
            exact Option.some.inj a2
          rw [hx] at this
          exact this.symm
        have hcov : s.covered = dsum ((ring K s).take (K - 1)) + (s.entries (if s.cur + 1 = K then 0 else s.cur + 1)).delta := by
          rw [h5]
          conv => lhs; rw [hsplit]
          rw [dsum_append]
          simp [dsum]
        rw [if_neg (by omega)]
        refine ⟨_, by rw [decide_eq_true (show s.last < e by omega)], ?_, ?_, ?_, ?_, ?_⟩
        · dsimp only; split <;> omega
        · rw [hp]; rfl
        · rw [hp]
          refine List.pairwise_cons.2 ⟨?_, h3⟩
          intro b hb
          rcases List.mem_cons.1 hb with rfl | hb
          · dsimp only; omega
          · have := (List.pairwise_cons.1 h3).1 b hb
            dsimp only; omega
        · rw [a1, hp, h4]
          obtain ⟨k, rfl⟩ : ∃ k, K = k + 1 := ⟨K - 1, by omega⟩
          simp only [toE, pay, Option.toList, List.foldr_nil, List.cons_append, List.take_succ_cons, Nat.add_sub_cancel]
          rw [List.take_take, h2, show min k (k + 1) = k from by omega]
        · rw [a1]
          dsimp only
          simp only [dsum, List.map_cons, List.sum_cons] at hcov ⊢
          omega

theorem report_inv {K : Nat} {ops : Ops T S} {s : Tr T} {l : Log S} (hK : 0 < K) (hI : Inv K ops s l) (e : Nat) (v : S) :
    ∃ s', report K ops s e v = some (decide (s.last < e), s') ∧ Inv K ops s' (push l (e, some v)) := by
  obtain ⟨s1, k1, k2⟩ := updateClock_inv hK hI e
  unfold report
  rw [k1]
  dsimp only
  refine ⟨_, rfl, ?_⟩
  have hh := hI.head
  cases hg : groups l with
  | nil => rw [hg] at hh; cases hh
  | cons g r =>
    have p1 := groups_push hg e none
    have p2 := groups_push hg e (some v)
    obtain ⟨h1, h2, h3, h4, h5⟩ := k2
    -- the two histories differ in the newest group only
    have key : ∃ e0 vs r', groups (push l (e, none)) = (e0, vs) :: r' ∧ groups (push l (e, some v)) = (e0, v :: vs) :: r' := by
      rw [p1, p2]
      split
      · exact ⟨_, _, _, rfl, rfl⟩
      · split
        · exact ⟨_, _, _, rfl, rfl⟩
        · exact ⟨_, _, _, rfl, rfl⟩
    obtain ⟨e0, vs, r', q1, q2⟩ := key
    rw [q1] at h2 h3 h4
    have hm := ring_modify (s := s1) h1 (f := fun x => ⟨x.delta, ops.report x.payload v⟩)
    have hring : ring K { s1 with entries := fun i => if i = s1.cur then ⟨(s1.entries i).delta, ops.report (s1.entries i).payload v⟩ else s1.entries i } = (toE ops ((e0, v :: vs) :: r') ++ List.replicate K (Entry.mk 0 ops.nil)).take K ∧
        dsum (ring K { s1 with entries := fun i => if i = s1.cur then ⟨(s1.entries i).delta, ops.report (s1.entries i).payload v⟩ else s1.entries i }) = dsum (ring K s1) := by
      rw [hm, h4]
      obtain ⟨k, rfl⟩ : ∃ k, K = k + 1 := ⟨K - 1, by omega⟩
      cases r' with
      | nil => exact ⟨rfl, by simp [toE, dsum]⟩
      | cons g' r' => exact ⟨rfl, by simp [toE, dsum]⟩
    refine ⟨h1, ?_, ?_, ?_, ?_⟩
    · rw [q2]; exact h2
    · rw [q2]
      rw [List.pairwise_cons] at h3 ⊢
      exact ⟨h3.1, h3.2⟩
    · rw [q2]; exact hring.1
    · rw [hring.2]; exact h5

theorem init_inv {K : Nat} {ops : Ops T S} (hK : 0 < K) (e : Nat) : Inv K ops (init ops e) [(e, none)] := by
  refine ⟨hK, rfl, by simp [groups], ?_, ?_⟩
  · rw [ring_init hK]
    obtain ⟨k, rfl⟩ : ∃ k, K = k + 1 := ⟨K - 1, by omega⟩
    simp only [groups, toE, pay, Option.toList, List.foldr_nil, List.cons_append, List.nil_append, List.take_succ_cons, Nat.add_sub_cancel]
    rw [List.take_replicate]
    congr 2
    omega
  · rw [ring_init hK]
    simp [init, dsum]

theorem Reach.inv {K d : Nat} {ops : Ops T S} {s : Tr T} {l : Log S} (hK : 0 < K) (hd : GoodTicks d) (h : Reach K d ops s l) :
    Inv K ops s l := by
  induction h with
  | init ht => rw [currentEpoch_eq hd ht]; exact init_inv hK _
  | report _ ht hr ih =>
    rw [currentEpoch_eq hd ht] at hr
    obtain ⟨s', k1, k2⟩ := report_inv hK ih _ _
    rw [k1] at hr
    cases hr
    exact k2
  | tick _ ht hr ih =>
    rw [currentEpoch_eq hd ht] at hr
    obtain ⟨s', k1, k2⟩ := updateClock_inv hK ih _
    rw [k1] at hr
    cases hr
    exact k2

/-! ### What the loop visits -/

theorem toE_pos {ops : Ops T S} : ∀ {g : List (Nat × List S)}, g.Pairwise (fun a b => b.1 < a.1) → ∀ e ∈ toE ops g, 0 < e.delta
  | [], _ => by intro e he; cases he
  | [_], _ => by intro e he; simp [toE] at he; subst he; exact Nat.one_pos
  | g :: g' :: r, h => by
    intro e he
    rw [toE, List.mem_cons] at he
    rw [List.pairwise_cons] at h
    rcases he with rfl | he
    · have := h.1 g' (List.mem_cons_self ..)
      dsimp only; omega
    · exact toE_pos h.2 e he

/-- From the newest epoch, the loop visits exactly the epochs that are recent enough. -/
theorem visitL_toE {ops : Ops T S} {E L : Nat} : ∀ (k : Nat) (g : Nat × List S) (r : List (Nat × List S)),
    (g :: r).Pairwise (fun a b => b.1 < a.1) → g.1 ≤ L → L - g.1 < E →
    (visitL E k (L - g.1) ((toE ops (g :: r)).take k)).map Entry.payload =
      (((g :: r).take k).filter (fun x => decide (L < x.1 + E))).map (fun x => pay ops x.2) := by
  intro k
  induction k with
  | zero => intro g r _ _ _; simp [visitL]
  | succ k ih =>
    intro g r hp hg hE
    rw [List.pairwise_cons] at hp
    cases r with
    | nil =>
      simp only [toE, List.take_succ_cons, List.take_nil, visitL]
      rw [List.filter_cons_of_pos (by simp; omega)]
      split <;> cases k <;> simp [visitL]
    | cons g' r =>
      have h' := hp.1 g' (List.mem_cons_self ..)
      simp only [toE, List.take_succ_cons, visitL]
      rw [List.filter_cons_of_pos (by simp; omega)]
      simp only [List.map_cons]
      congr 1
      have e : L - g.1 + (g.1 - g'.1) = L - g'.1 := by omega
      rw [e]
      split
      · rename_i hle
        symm
        rw [List.map_nil, List.map_eq_nil_iff, List.filter_eq_nil_iff]
        intro x hx
        have hx' := List.mem_of_mem_take hx
        have : x.1 ≤ g'.1 := by
          rcases List.mem_cons.1 hx' with rfl | hx'
          · exact Nat.le_refl _
          · exact Nat.le_of_lt ((List.pairwise_cons.1 hp.2).1 x hx')
        simp; omega
      · exact ih g' r hp.2 (by omega) (by omega)

/-- The epochs covered by the slots in use. -/
theorem dsum_toE {ops : Ops T S} : ∀ (k : Nat) (g : Nat × List S) (r : List (Nat × List S)), (g :: r).Pairwise (fun a b => b.1 < a.1) →
    ∀ x ∈ (g :: r).take k, g.1 < x.1 + dsum ((toE ops (g :: r)).take k) := by
  intro k
  induction k with
  | zero => intro g r _ x hx; simp at hx
  | succ k ih =>
    intro g r hp x hx
    rw [List.pairwise_cons] at hp
    cases r with
    | nil =>
      simp only [List.take_succ_cons, List.take_nil, List.mem_singleton] at hx
      subst hx
      simp [toE, dsum]
    | cons g' r =>
      have h' := hp.1 g' (List.mem_cons_self ..)
      simp only [toE, List.take_succ_cons, dsum, List.map_cons, List.sum_cons]
      rw [List.take_succ_cons, List.mem_cons] at hx
      rcases hx with rfl | hx
      · omega
      · have := ih g' r hp.2 x hx
        simp only [dsum] at this
        omega


theorem old_drop : ∀ (k : Nat) (g : Nat × List S) (r : List (Nat × List S)), (g :: r).Pairwise (fun a b => b.1 < a.1) →
    ∀ x ∈ (g :: r).drop k, x.1 + k ≤ g.1 := by
  intro k
  induction k with
  | zero =>
    intro g r hp x hx
    rw [List.drop_zero] at hx
    rcases List.mem_cons.1 hx with rfl | hx
    · omega
    · have := (List.pairwise_cons.1 hp).1 x hx; omega
  | succ k ih =>
    intro g r hp x hx
    rw [List.drop_succ_cons] at hx
    cases r with
    | nil => simp at hx
    | cons g' r =>
      rw [List.pairwise_cons] at hp
      have := hp.1 g' (List.mem_cons_self ..)
      have := ih g' r hp.2 x hx
      omega

/-- The number of epochs of an interval. -/
def epochs (len : Nat) : Option Nat → Option Nat
  | none => none
  | some t => some (ceilDiv t len)

/-- What `IterBackwards` visits: of the `K` latest epochs with events, those within the interval. -/
theorem iter_spec {K len : Nat} {ops : Ops T S} {s : Tr T} {l : Log S} (hK : 0 < K) (hl : 0 < len) (hI : Inv K ops s l) (t : Option Nat) :
    ∃ r, iterBackwards K len s t = some r ∧
      r.map Entry.payload = (((groups l).take K).filter (fun x => match t with
        | none => true
        | some t => decide (now l < x.1 + ceilDiv t len))).map (fun x => pay ops x.2) := by
  obtain ⟨h1, h2, h3, h4, h5⟩ := hI
  cases hg : groups l with
  | nil => rw [hg] at h2; cases h2
  | cons g r =>
    rw [hg] at h2 h3 h4
    simp at h2
    have hnow : now l = g.1 := by
      have := groups_head (l := l)
      rw [hg] at this
      cases l with
      | nil => cases hg
      | cons x l => simp at this; exact this.symm
    -- the part of the ring in use
    have hsplit : ring K s = (toE ops (g :: r)).take K ++ List.replicate (K - (g :: r).length) (Entry.mk 0 ops.nil) := by
      rw [h4, List.take_append, toE_length, List.take_replicate]
      congr 2
      omega
    have hds : s.covered = dsum ((toE ops (g :: r)).take K) := by
      rw [h5, hsplit, dsum_append]
      simp [dsum]
    have hcov : ∀ x ∈ (g :: r).take K, g.1 < x.1 + s.covered := by rw [hds]; exact dsum_toE K g r h3
    have hgm : g ∈ (g :: r).take K := by
      obtain ⟨k, rfl⟩ : ∃ k, K = k + 1 := ⟨K - 1, by omega⟩
      simp
    have hcpos : 0 < s.covered := by have := hcov g hgm; omega
    -- the loop, for any number of epochs that are covered
    have hvis : ∀ E, 0 < E → E ≤ s.covered → (visit K s E (min K E) s.cur 0).map Entry.payload =
        (((g :: r).take K).filter (fun x => decide (g.1 < x.1 + E))).map (fun x => pay ops x.2) := by
      intro E hE0 hE
      have hv := visit_ring (s := s) h1 (E := E) (min K E) 0 0 (by omega)
      rw [Nat.sub_zero, Nat.add_mod_right, Nat.mod_eq_of_lt h1, List.drop_zero] at hv
      rw [hv, hsplit, visitL_append _ _ _ _ (fun e he => toE_pos h3 e (List.mem_of_mem_take he)) (by rw [← hds]; omega) hE0
        (by rw [List.length_take]; omega)]
      have := visitL_toE (ops := ops) (E := E) (L := g.1) K g r h3 (Nat.le_refl _) (by omega)
      rw [Nat.sub_self] at this
      rw [← this]
      congr 1
      -- the limit on the number of slots is that of the list
      have hfuel : ∀ (A : List (Entry T)) (n tr : Nat), A.length ≤ n → visitL E n tr A = visitL E A.length tr A := by
        intro A
        induction A with
        | nil => intro n tr _; cases n <;> simp [visitL]
        | cons e A ih =>
          intro n tr hn
          cases n with
          | zero => simp at hn
          | succ n =>
            simp only [List.length_cons, visitL]
            rw [ih n _ (by simp at hn; omega)]
      exact (hfuel _ K 0 (by rw [List.length_take]; omega)).symm
    unfold iterBackwards
    cases t with
    | none =>
      dsimp only
      rw [if_neg (by simp), if_neg (by omega)]
      refine ⟨_, rfl, ?_⟩
      rw [hvis _ hcpos (Nat.le_refl _)]
      congr 1
      rw [List.filter_eq_self.2 (fun x hx => by simp only [decide_eq_true_eq]; exact hcov x hx)]
      rw [List.filter_eq_self.2 (fun x hx => rfl)]
    | some t =>
      dsimp only
      rw [hnow]
      by_cases ht : t = 0
      · subst ht
        refine ⟨[], by simp, ?_⟩
        have hc0 : ceilDiv 0 len = 0 := by unfold ceilDiv; rw [Nat.div_eq_of_lt (by omega)]
        rw [hc0]
        symm
        rw [List.map_nil, List.map_eq_nil_iff, List.filter_eq_nil_iff]
        intro x hx
        have : x.1 ≤ g.1 := by
          rcases List.mem_cons.1 (List.mem_of_mem_take hx) with rfl | hx
          · exact Nat.le_refl _
          · exact Nat.le_of_lt ((List.pairwise_cons.1 h3).1 x hx)
        simp; omega
      · have hc0 : 0 < ceilDiv t len := by unfold ceilDiv; exact Nat.div_pos (by omega) hl
        rw [if_neg (by simp [ht]), if_neg (by omega)]
        refine ⟨_, rfl, ?_⟩
        rw [hvis _ (by omega) (by omega)]
        congr 1
        apply List.filter_congr
        intro x hx
        have := hcov x hx
        by_cases h : g.1 < x.1 + ceilDiv t len
        · rw [decide_eq_true h, decide_eq_true (by omega)]
        · rw [decide_eq_false h, decide_eq_false (by omega)]

/-- If the interval is no longer than the window, nothing is missing. -/
theorem filter_window {K E : Nat} {l : Log S} (h : (groups l).Pairwise (fun a b => b.1 < a.1)) (hE : E ≤ K) :
    ((groups l).take K).filter (fun x => decide (now l < x.1 + E)) = (groups l).filter (fun x => decide (now l < x.1 + E)) := by
  cases hg : groups l with
  | nil => simp
  | cons g r =>
    have hnow : now l = g.1 := by
      have := groups_head (l := l)
      rw [hg] at this
      cases l with
      | nil => cases hg
      | cons x l => simp at this; exact this.symm
    rw [hg] at h
    have hsplit : (g :: r).filter (fun x => decide (now l < x.1 + E)) =
        ((g :: r).take K).filter (fun x => decide (now l < x.1 + E)) ++ ((g :: r).drop K).filter (fun x => decide (now l < x.1 + E)) := by
      rw [← List.filter_append, List.take_append_drop]
    have hz : ((g :: r).drop K).filter (fun x => decide (now l < x.1 + E)) = [] := by
      rw [List.filter_eq_nil_iff]
      intro x hx
      have := old_drop K g r h x hx
      simp; omega
    rw [hsplit, hz, List.append_nil]

/-- The values of an epoch. -/
theorem mem_groups {l : Log S} {e : Nat} {v : S} (h : (groups l).Pairwise (fun a b => b.1 < a.1)) :
    (e, some v) ∈ l ↔ ∃ vs, (e, vs) ∈ groups l ∧ v ∈ vs := by
  induction l with
  | nil => simp [groups]
  | cons x l ih =>
    obtain ⟨e1, v1⟩ := x
    have hv : ∀ (o : Option S), (some v = o ↔ v ∈ o.toList) := by
      intro o; cases o <;> simp
    unfold groups at h ⊢
    cases hg : groups l with
    | nil =>
      rw [hg] at ih
      simp only [List.mem_cons, Prod.mk.injEq, List.not_mem_nil, or_false]
      have := ih (by simp)
      simp only [List.not_mem_nil, false_and, exists_false, iff_false] at this
      constructor
      · rintro (⟨rfl, h1⟩ | h1)
        · exact ⟨_, ⟨rfl, rfl⟩, (hv _).1 h1⟩
        · exact absurd h1 this
      · rintro ⟨vs, ⟨rfl, rfl⟩, h1⟩
        exact .inl ⟨rfl, (hv _).2 h1⟩
    | cons g r =>
      obtain ⟨e0, vs⟩ := g
      rw [hg] at h ih
      dsimp only at h ⊢
      split at h
      · rename_i heq
        rw [if_pos heq]
        have ih' := ih (by rw [List.pairwise_cons] at h ⊢; exact h)
        subst heq
        simp only [List.mem_cons, Prod.mk.injEq, ih']
        constructor
        · rintro (⟨rfl, h1⟩ | ⟨vs', ⟨rfl, rfl⟩ | h1, h2⟩)
          · exact ⟨_, .inl ⟨rfl, rfl⟩, List.mem_append_left _ ((hv _).1 h1)⟩
          · exact ⟨_, .inl ⟨rfl, rfl⟩, List.mem_append_right _ h2⟩
          · exact ⟨_, .inr h1, h2⟩
        · rintro ⟨vs', ⟨rfl, rfl⟩ | h1, h2⟩
          · rcases List.mem_append.1 h2 with h2 | h2
            · exact .inl ⟨rfl, (hv _).2 h2⟩
            · exact .inr ⟨_, .inl ⟨rfl, rfl⟩, h2⟩
          · exact .inr ⟨_, .inr h1, h2⟩
      · rename_i hne
        rw [if_neg hne]
        have ih' := ih (List.pairwise_cons.1 h).2
        rw [List.mem_cons, ih']
        simp only [Prod.mk.injEq, List.mem_cons]
        constructor
        · rintro (⟨rfl, h1⟩ | ⟨vs', h1, h2⟩)
          · exact ⟨_, .inl ⟨rfl, rfl⟩, (hv _).1 h1⟩
          · exact ⟨_, .inr h1, h2⟩
        · rintro ⟨vs', ⟨rfl, rfl⟩ | h1, h2⟩
          · exact .inl ⟨rfl, (hv _).2 h2⟩
          · exact .inr ⟨_, h1, h2⟩

end Verif.TimeSeries
