import Verif.Lifetime.Spec
/-! The table and the event list as functions of the calls of `AddTrace`. -/
namespace Verif.Lifetime

theorem upd_same {α : Type} (f : Nat → α) (i : Nat) (v : α) : upd f i v i = v := if_pos rfl
theorem upd_ne {α : Type} (f : Nat → α) {i x : Nat} (v : α) (h : x ≠ i) : upd f i v x = f x := if_neg h

/-! ### One cell -/

theorem sum_append (xs ys : List Int) : sum (xs ++ ys) = sum xs + sum ys := by
  induction xs with
  | nil => show _ = 0 + sum ys; grind
  | cons x xs ih => show (x : Rat) + sum (xs ++ ys) = (x + sum xs) + sum ys; rw [ih]; grind

theorem devs_append (m : Rat) (xs ys : List Int) : devs m (xs ++ ys) = devs m xs + devs m ys := by
  induction xs with
  | nil => show _ = 0 + devs m ys; grind
  | cons x xs ih => show _ + devs m (xs ++ ys) = (_ + devs m xs) + devs m ys; rw [ih]; grind

theorem sum_perm {xs ys : List Int} (h : xs.Perm ys) : sum xs = sum ys := by
  induction h with
  | nil => rfl
  | cons x _ ih => show (x : Rat) + _ = x + _; rw [ih]
  | swap x y l => show (y : Rat) + (x + _) = x + (y + _); grind
  | trans _ _ a b => exact a.trans b

theorem devs_perm {m : Rat} {xs ys : List Int} (h : xs.Perm ys) : devs m xs = devs m ys := by
  induction h with
  | nil => rfl
  | cons x _ ih => show _ + _ = _ + _; rw [ih]
  | swap x y l => show (((y : Rat) - m) * (y - m)) + (((x : Rat) - m) * (x - m) + devs m l) = ((x : Rat) - m) * (x - m) + (((y : Rat) - m) * (y - m) + devs m l); grind
  | trans _ _ a b => exact a.trans b

theorem Stats.perm {c : Cell} {xs ys : List Int} (h : Stats c xs) (hp : xs.Perm ys) : Stats c ys := by
  refine ⟨by rw [h.count, hp.length_eq], fun m => ?_, ⟨fun x hx => h.hi.1 x (hp.mem_iff.2 hx), h.hi.2.1, h.hi.2.2.imp id fun a => hp.mem_iff.1 a⟩, by rw [h.mean, sum_perm hp]⟩
  rw [h.lo m, hp.mem_iff]
  exact ⟨fun ⟨a, b⟩ => ⟨a, fun x hx => b x (hp.mem_iff.2 hx)⟩, fun ⟨a, b⟩ => ⟨a, fun x hx => b x (hp.mem_iff.1 hx)⟩⟩

/-- Squares about another centre. -/
theorem devs_shift (m m' : Rat) (xs : List Int) :
    devs m' xs = devs m xs + 2 * (m - m') * (sum xs - m * xs.length) + (m - m') * (m - m') * xs.length := by
  induction xs with
  | nil => show (0 : Rat) = 0 + 2 * (m - m') * (0 - m * ((0 : Nat) : Rat)) + (m - m') * (m - m') * ((0 : Nat) : Rat); grind
  | cons x xs ih =>
    show ((x : Rat) - m') * (x - m') + devs m' xs = ((x : Rat) - m) * (x - m) + devs m xs + 2 * (m - m') * (((x : Rat) + sum xs) - m * ((xs.length + 1 : Nat) : Rat)) +
      (m - m') * (m - m') * ((xs.length + 1 : Nat) : Rat)
    have h1 : ((xs.length + 1 : Nat) : Rat) = (xs.length : Rat) + 1 := by rw [Rat.natCast_add]; rfl
    rw [ih, h1]
    generalize (xs.length : Rat) = n
    grind

/-- What the update adds to the sum of squares it keeps, and what the squared deviations grow by. -/
theorem spread {n s m m' x : Rat} (hm : m * n = s) (hm' : m' * (n + 1) = s + x) :
    (x - m') * (m' - m) = n * ((m' - m) * (m' - m)) ∧
      2 * (m - m') * (s - m * n) + (m - m') * (m - m') * n + (x - m') * (x - m') = n * (n + 1) * ((m' - m) * (m' - m)) := by
  have h1 : x - m' = n * (m' - m) := by grind
  refine ⟨by rw [h1]; grind, ?_⟩
  rw [h1, hm]; grind

theorem stats_nil : Stats {} [] := by
  refine ⟨rfl, fun m => ⟨fun h => (by cases h), fun h => (by cases h.1)⟩, ⟨fun x hx => (by cases hx), Int.le_refl _, Or.inl rfl⟩, ?_⟩
  show (0 : Rat) * ((0 : Nat) : Rat) = 0
  grind

theorem Stats.add {c : Cell} {xs : List Int} (h : Stats c xs) (x : Int) : Stats (c.add x) (xs ++ [x]) := by
  have hn : (((c.count : Nat) : Rat) + 1) ≠ 0 := by
    intro h0
    have : ((c.count + 1 : Nat) : Rat) = ((0 : Nat) : Rat) := by rw [Rat.natCast_add]; exact h0
    exact absurd (Rat.natCast_inj.1 this) (by omega)
  have hcast : ((c.count + 1 : Nat) : Rat) = (c.count : Rat) + 1 := by rw [Rat.natCast_add]; rfl
  have hm' : (c.mean + ((x : Rat) - c.mean) / (c.count + 1)) * ((c.count : Rat) + 1) = sum xs + x := by
    rw [← h.mean]; grind
  refine ⟨by simp [Cell.add, h.count], fun m => ?_, ⟨fun y hy => ?_, ?_, ?_⟩, ?_⟩
  · show some (match c.min with | none => x | some m => if x < m then x else m) = some m ↔ _
    rw [Option.some.injEq]
    cases hmin : c.min with
    | none =>
      have hxs : xs = [] := by
        apply Classical.byContradiction
        intro hne
        -- a nonempty list has a minimum
        have : ∀ l : List Int, l ≠ [] → ∃ m, m ∈ l ∧ ∀ x ∈ l, m ≤ x := by
          intro l
          induction l with
          | nil => intro h; exact absurd rfl h
          | cons a l ih =>
            intro _
            by_cases hl : l = []
            · subst hl; exact ⟨a, List.mem_cons_self .., fun y hy => by rw [List.mem_singleton.1 hy]; exact Int.le_refl _⟩
            · obtain ⟨m, hm, hall⟩ := ih hl
              by_cases ham : a ≤ m
              · refine ⟨a, List.mem_cons_self .., fun y hy => ?_⟩
                rcases List.mem_cons.1 hy with rfl | hy
                · exact Int.le_refl _
                · exact Int.le_trans ham (hall y hy)
              · refine ⟨m, List.mem_cons_of_mem _ hm, fun y hy => ?_⟩
                rcases List.mem_cons.1 hy with rfl | hy
                · omega
                · exact hall y hy
        obtain ⟨m, hm⟩ := this xs hne
        have := (h.lo m).2 hm
        rw [hmin] at this; cases this
      subst hxs
      simp only [List.nil_append, List.mem_singleton]
      constructor
      · rintro rfl; exact ⟨rfl, fun y hy => by rw [hy]; exact Int.le_refl _⟩
      · rintro ⟨rfl, -⟩; rfl
    | some m0 =>
      obtain ⟨h1, h2⟩ := (h.lo m0).1 hmin
      simp only [List.mem_append, List.mem_singleton]
      by_cases hx : x < m0
      · rw [if_pos hx]
        constructor
        · rintro rfl
          refine ⟨Or.inr rfl, fun y hy => ?_⟩
          rcases hy with hy | rfl
          · have := h2 y hy; omega
          · exact Int.le_refl _
        · rintro ⟨ha, hb⟩
          have hb1 := hb x (Or.inr rfl)
          rcases ha with ha | rfl
          · have := h2 m ha; omega
          · rfl
      · rw [if_neg hx]
        constructor
        · rintro rfl
          refine ⟨Or.inl h1, fun y hy => ?_⟩
          rcases hy with hy | rfl
          · exact h2 y hy
          · omega
        · rintro ⟨ha, hb⟩
          have hb1 := hb m0 (Or.inl h1)
          rcases ha with ha | rfl
          · have := h2 m ha; omega
          · omega
  · show y ≤ if c.max < x then x else c.max
    rcases List.mem_append.1 hy with hy | hy
    · have := h.hi.1 y hy
      split <;> omega
    · rw [List.mem_singleton.1 hy]
      split <;> omega
  · show 0 ≤ if c.max < x then x else c.max
    have := h.hi.2.1
    split <;> omega
  · show (if c.max < x then x else c.max) = 0 ∨ (if c.max < x then x else c.max) ∈ xs ++ [x]
    split
    · exact Or.inr (List.mem_append_right _ (List.mem_singleton.2 rfl))
    · exact h.hi.2.2.imp id fun a => List.mem_append_left _ a
  · show (c.mean + ((x : Rat) - c.mean) / (c.count + 1)) * ((c.count + 1 : Nat) : Rat) = _
    rw [hcast, hm', sum_append]
    show _ = sum xs + ((x : Rat) + 0)
    grind

theorem sq_nonneg (q : Rat) : 0 ≤ q * q := by
  rcases Rat.nonneg_total q with h | h
  · exact Rat.mul_nonneg h h
  · have := Rat.mul_nonneg h h
    grind

theorem devs_nonneg (m : Rat) : ∀ xs : List Int, 0 ≤ devs m xs
  | [] => Rat.le_refl
  | _ :: xs => Rat.add_nonneg (sq_nonneg _) (devs_nonneg m xs)

theorem devs_zero {m : Rat} : ∀ {xs : List Int}, devs m xs = 0 → ∀ x ∈ xs, (x : Rat) = m
  | [], _, _, hx => by cases hx
  | y :: xs, h, x, hx => by
    have h1 := sq_nonneg ((y : Rat) - m)
    have h2 := devs_nonneg m xs
    have h3 : ((y : Rat) - m) * (y - m) + devs m xs = 0 := h
    have h4 : devs m xs = 0 := by grind
    have h5 : ((y : Rat) - m) * (y - m) = 0 := by grind
    rcases List.mem_cons.1 hx with rfl | hx
    · grind
    · exact devs_zero h4 x hx

/-- The sum of squares kept in a cell is never negative and at most half the sum of the squared deviations. -/
def Low (c : Cell) (xs : List Int) : Prop := 0 ≤ c.var ∧ 2 * c.var ≤ devs c.mean xs

theorem low_nil : Low {} [] := ⟨Rat.le_refl, by show 2 * (0 : Rat) ≤ 0; grind⟩

theorem Low.add {c : Cell} {xs : List Int} (hst : Stats c xs) (h : Low c xs) (x : Int) : Low (c.add x) (xs ++ [x]) := by
  have hn : (((c.count : Nat) : Rat) + 1) ≠ 0 := by
    intro h0
    have : ((c.count + 1 : Nat) : Rat) = ((0 : Nat) : Rat) := by rw [Rat.natCast_add]; exact h0
    exact absurd (Rat.natCast_inj.1 this) (by omega)
  have hm' : (c.mean + ((x : Rat) - c.mean) / (c.count + 1)) * ((c.count : Rat) + 1) = sum xs + x := by
    rw [← hst.mean]; grind
  have hmean : (c.add x).mean = c.mean + ((x : Rat) - c.mean) / (c.count + 1) := rfl
  have hvar : (c.add x).var = c.var + ((x : Rat) - (c.add x).mean) * ((c.add x).mean - c.mean) := rfl
  rw [← hmean] at hm'
  generalize hme : (c.add x).mean = m' at hm' hvar
  obtain ⟨h1, h2⟩ := spread hst.mean hm'
  have hd : devs m' (xs ++ [x]) = devs c.mean xs + c.count * (c.count + 1) * ((m' - c.mean) * (m' - c.mean)) := by
    rw [devs_append, devs_shift c.mean m' xs, ← hst.count, ← h2]
    show _ + (((x : Rat) - m') * (x - m') + 0) = _
    grind
  have hsq := sq_nonneg (m' - c.mean)
  have hnn : (0 : Rat) ≤ (c.count : Rat) := Rat.natCast_nonneg
  refine ⟨?_, ?_⟩
  · rw [hvar, h1]
    exact Rat.add_nonneg h.1 (Rat.mul_nonneg hnn hsq)
  · rw [hvar, h1, hme, hd]
    generalize (m' - c.mean) * (m' - c.mean) = q at *
    have : 2 * (c.count * q) ≤ (c.count : Rat) * (c.count + 1) * q := by
      have hc : (2 : Rat) * c.count ≤ (c.count : Rat) * (c.count + 1) := by
        have h0 : 2 * c.count ≤ c.count * (c.count + 1) := by
          rcases Nat.eq_zero_or_pos c.count with h | h
          · rw [h]; decide
          · rw [Nat.mul_comm 2]; exact Nat.mul_le_mul_left _ (by omega)
        have := Rat.natCast_le_natCast.2 h0
        rw [Rat.natCast_mul, Rat.natCast_mul, Rat.natCast_add] at this
        exact this
      have := Rat.mul_le_mul_of_nonneg_right hc hsq
      grind
    have h3 := h.2
    grind

/-! ### The table -/

theorem lookup_put (f : (Nat → Cell) → (Nat → Cell)) (k k' : Key × Key) : ∀ t : List ((Key × Key) × (Nat → Cell)),
    ((put f k t).lookup k').getD (fun _ => {}) = if k' = k then f ((t.lookup k).getD fun _ => {}) else (t.lookup k').getD fun _ => {}
  | [] => by
    simp only [put, List.lookup_cons, List.lookup_nil]
    by_cases h : k' = k
    · rw [if_pos h, h, beq_self_eq_true]; rfl
    · rw [if_neg h, show (k' == k) = false from beq_eq_false_iff_ne.2 h]
  | (k0, v) :: t => by
    simp only [put]
    by_cases h0 : k0 = k
    · rw [if_pos h0]
      simp only [List.lookup_cons]
      by_cases h : k' = k
      · rw [if_pos h, h, h0, beq_self_eq_true]; rfl
      · rw [if_neg h, h0, show (k' == k) = false from beq_eq_false_iff_ne.2 h]
    · rw [if_neg h0]
      simp only [List.lookup_cons]
      rw [show (k == k0) = false from beq_eq_false_iff_ne.2 fun e => h0 e.symm]
      by_cases h : k' = k0
      · rw [h, beq_self_eq_true, if_neg h0]
      · rw [show (k' == k0) = false from beq_eq_false_iff_ne.2 h]
        exact lookup_put f k k' t

theorem addTrace_mode (t : Table) (a d : Rec) : (t.addTrace a d).mode = t.mode ∧ (t.addTrace a d).maxEvents = t.maxEvents := by
  unfold Table.addTrace
  split
  · split <;> exact ⟨rfl, rfl⟩
  · split <;> exact ⟨rfl, rfl⟩

/-- The calls of `AddTrace` in order. -/
def addAll (t : Table) (log : List (Rec × Rec)) : Table := log.foldl (fun t x => t.addTrace x.1 x.2) t

theorem addAll_snoc (t : Table) (log : List (Rec × Rec)) (x : Rec × Rec) : addAll t (log ++ [x]) = (addAll t log).addTrace x.1 x.2 := by
  simp only [addAll, List.foldl_append, List.foldl_cons, List.foldl_nil]

theorem addAll_append (t : Table) (l l' : List (Rec × Rec)) : addAll t (l ++ l') = addAll (addAll t l) l' := by
  simp only [addAll, List.foldl_append]

theorem lives_append (l l' : List (Rec × Rec)) (k : Key × Key) (i : Nat) : lives (l ++ l') k i = lives l k i ++ lives l' k i := by
  simp only [lives, List.filterMap_append]

def Good (c : Cell) (xs : List Int) : Prop := Stats c xs ∧ Low c xs

theorem Good.add {c : Cell} {xs : List Int} (h : Good c xs) (x : Int) : Good (c.add x) (xs ++ [x]) := ⟨h.1.add x, h.2.add h.1 x⟩

theorem bit (x y : Int) (n : Nat) : (x == y).toNat * n = if x = y then n else 0 := by
  by_cases h : x = y
  · rw [if_pos h, beq_iff_eq.2 h]; exact Nat.one_mul n
  · rw [if_neg h, beq_eq_false_iff_ne.2 h]; exact Nat.zero_mul n

theorem index_eq (a d : Rec) : index a d = caseOf a.loc d.loc := by
  unfold index caseOf computeIndex statusOf
  rw [bit, bit, bit, bit, ← Nat.mul_one (Bool.toNat (a.loc.thread == _)), bit]
  rfl

/-- In lifetimes mode each cell holds the statistics of its lifetimes. -/
theorem cell_addTrace {t : Table} {log : List (Rec × Rec)} (hm : t.mode = .lifetimes) (h : ∀ k i, Good (t.cell k i) (lives log k i)) (a d : Rec) :
    ∀ k i, Good ((t.addTrace a d).cell k i) (lives (log ++ [(a, d)]) k i) := by
  intro k i
  rw [lives_append]
  unfold Table.addTrace
  rw [hm]
  dsimp only
  by_cases hs : a.info.stack.length = 0
  · rw [if_pos hs]
    have : lives [(a, d)] k i = [] := by
      show List.filterMap _ [(a, d)] = []
      rw [List.filterMap_cons, if_neg (fun h => h.1 hs)]; rfl
    rw [this, List.append_nil]; exact h k i
  · rw [if_neg hs]
    unfold Table.cell
    dsimp only
    rw [lookup_put]
    by_cases hk : k = (a.key, d.key)
    · rw [if_pos hk]
      by_cases hi : i = index a d
      · rw [hi, upd_same]
        have : lives [(a, d)] k (index a d) = [d.info.time - a.info.time] := by
          show List.filterMap _ [(a, d)] = _
          rw [List.filterMap_cons, if_pos ⟨hs, hk.symm, (index_eq a d).symm⟩]; rfl
        rw [this, ← hk]
        exact (h k (index a d)).add _
      · rw [upd_ne _ _ hi]
        have : lives [(a, d)] k i = [] := by
          show List.filterMap _ [(a, d)] = _
          rw [List.filterMap_cons, if_neg (fun h => hi (h.2.2.symm.trans (index_eq a d).symm))]; rfl
        rw [this, List.append_nil, ← hk]; exact h k i
    · rw [if_neg hk]
      have : lives [(a, d)] k i = [] := by
        show List.filterMap _ [(a, d)] = _
        rw [List.filterMap_cons, if_neg (fun h => hk h.2.1.symm)]; rfl
      rw [this, List.append_nil]; exact h k i

theorem addAll_mode (t : Table) : ∀ log : List (Rec × Rec), (addAll t log).mode = t.mode ∧ (addAll t log).maxEvents = t.maxEvents
  | [] => ⟨rfl, rfl⟩
  | x :: log => by
    have h := addAll_mode (t.addTrace x.1 x.2) log
    have h2 := addTrace_mode t x.1 x.2
    exact ⟨h.1.trans h2.1, h.2.trans h2.2⟩

theorem cells_exact (n : Nat) (log : List (Rec × Rec)) : ∀ k i, Good ((addAll ⟨.lifetimes, n, [], []⟩ log).cell k i) (lives log k i) := by
  suffices ∀ (l log : List (Rec × Rec)) (t : Table), t.mode = .lifetimes → (∀ k i, Good (t.cell k i) (lives log k i)) →
      ∀ k i, Good ((addAll t l).cell k i) (lives (log ++ l) k i) from this log [] _ rfl fun k i => ⟨stats_nil, low_nil⟩
  intro l
  induction l with
  | nil => intro log t _ h k i; rw [List.append_nil]; exact h k i
  | cons x l ih =>
    intro log t hm h k i
    have := ih (log ++ [x]) (t.addTrace x.1 x.2) ((addTrace_mode ..).1.trans hm) (cell_addTrace hm h x.1 x.2) k i
    rw [List.append_assoc] at this
    exact this

/-! ### The event list -/

theorem events_addTrace (t : Table) (hm : t.mode = .eventTrace) (x : Rec × Rec) :
    (t.addTrace x.1 x.2).events = if t.events.length + 2 ≤ t.maxEvents then t.events ++ shown x else t.events := by
  unfold Table.addTrace
  rw [hm]
  dsimp only
  by_cases h : t.events.length + 2 ≤ t.maxEvents
  · rw [if_pos h, if_pos h]
    show _ ++ _ ++ _ = _ ++ (_ ++ _)
    rw [List.append_assoc]
  · rw [if_neg h, if_neg h]

theorem shown_length (x : Rec × Rec) : (shown x).length ≤ 2 := by
  unfold shown
  split <;> split <;> simp

/-- The events are those of the first calls, as many as fit; the trace is cut only where fewer than two places are left. -/
theorem events_exact (n : Nat) (log : List (Rec × Rec)) : ∃ j, j ≤ log.length ∧
    (addAll ⟨.eventTrace, n, [], []⟩ log).events = (log.take j).flatMap shown ∧ (addAll ⟨.eventTrace, n, [], []⟩ log).events.length ≤ n ∧
    (j = log.length ∨ n < (addAll ⟨.eventTrace, n, [], []⟩ log).events.length + 2) := by
  suffices ∀ (l log : List (Rec × Rec)) (t : Table), t.mode = .eventTrace → t.maxEvents = n →
      (∃ j, j ≤ log.length ∧ t.events = (log.take j).flatMap shown ∧ t.events.length ≤ n ∧ (j = log.length ∨ n < t.events.length + 2)) →
      ∃ j, j ≤ (log ++ l).length ∧ (addAll t l).events = ((log ++ l).take j).flatMap shown ∧ (addAll t l).events.length ≤ n ∧
        (j = (log ++ l).length ∨ n < (addAll t l).events.length + 2) from
    this log [] _ rfl rfl ⟨0, Nat.le_refl _, rfl, Nat.zero_le _, Or.inl rfl⟩
  intro l
  induction l with
  | nil => intro log t _ _ h; rw [List.append_nil]; exact h
  | cons x l ih =>
    intro log t hm hn ⟨j, h1, h2, h3, h4⟩
    have := ih (log ++ [x]) (t.addTrace x.1 x.2) ((addTrace_mode ..).1.trans hm) ((addTrace_mode ..).2.trans hn) ?_
    · rw [List.append_assoc] at this
      exact this
    · rw [events_addTrace t hm, hn]
      by_cases hfit : t.events.length + 2 ≤ n
      · rw [if_pos hfit]
        have hj : j = log.length := h4.resolve_right (by omega)
        refine ⟨j + 1, by rw [List.length_append]; show j + 1 ≤ log.length + 1; omega, ?_, ?_, Or.inl (by rw [List.length_append, hj]; rfl)⟩
        · rw [h2, hj, List.take_length]
          rw [show log.length + 1 = (log ++ [x]).length by rw [List.length_append]; rfl, List.take_length, List.flatMap_append]
          show _ = _ ++ (shown x ++ [])
          rw [List.append_nil]
        · rw [List.length_append]
          have := shown_length x
          omega
      · rw [if_neg hfit]
        exact ⟨j, by rw [List.length_append]; omega, by rw [List.take_append_of_le_length h1]; exact h2, h3, Or.inr (by omega)⟩

end Verif.Lifetime
