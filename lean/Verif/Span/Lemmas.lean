import Verif.Span.Model
/-! The compressed free list: which list of objects a given memory represents. -/
namespace Verif.Span

/-- `Chain w base lim fl em L`: with first host `fl` holding `em` embedded indices, memory `w` represents
the list `L` of indices (in the order in which they would be popped).  `base` is the span's first word. -/
inductive Chain (w : Mem) (base lim : Nat) : Nat → Nat → List Nat → Prop
  | nil (em : Nat) : Chain w base lim kListEnd em []
  | cons (f e : Nat) (l : List Nat) : f ≠ kListEnd → e ≤ lim →
      Chain w base lim (w (base + 4 * f)) lim l →
      Chain w base lim f e ((List.range e).map (fun i => w (base + 4 * f + (e - i))) ++ f :: l)

theorem Chain.frame {w w' : Mem} {base lim fl em : Nat} {L : List Nat}
    (h : Chain w base lim fl em L)
    (hw : ∀ i ∈ L, ∀ k ≤ lim, w' (base + 4 * i + k) = w (base + 4 * i + k)) :
    Chain w' base lim fl em L := by
  induction h with
  | nil em => exact .nil em
  | cons f e l hf he _ ih =>
    have hf' := hw f (by simp)
    have e0 : w' (base + 4 * f) = w (base + 4 * f) := by simpa using hf' 0 (by omega)
    have em : (List.range e).map (fun i => w (base + 4 * f + (e - i))) =
        (List.range e).map (fun i => w' (base + 4 * f + (e - i))) := by
      apply List.map_congr_left
      intro i _
      exact (hf' (e - i) (by omega)).symm
    rw [em]
    apply Chain.cons f e l hf he
    rw [e0]
    exact ih fun i hi k hk => hw i (by simp [hi]) k hk

theorem Chain.inv {w : Mem} {base lim fl em : Nat} {L : List Nat} (h : Chain w base lim fl em L)
    (hf : fl ≠ kListEnd) :
    ∃ l, em ≤ lim ∧ Chain w base lim (w (base + 4 * fl)) lim l ∧
      L = (List.range em).map (fun i => w (base + 4 * fl + (em - i))) ++ fl :: l := by
  cases h with
  | nil => exact absurd rfl hf
  | cons _ _ l _ he h => exact ⟨l, he, h, rfl⟩

theorem Chain.end_nil {w : Mem} {base lim em : Nat} {L : List Nat}
    (h : Chain w base lim kListEnd em L) : L = [] := by
  generalize hf : kListEnd = f at h
  cases h with
  | nil => rfl
  | cons _ _ l hne => exact absurd hf.symm hne

theorem Chain.nil_end {w : Mem} {base lim fl em : Nat} {L : List Nat}
    (h : Chain w base lim fl em L) (hL : L = []) : fl = kListEnd := by
  cases h with
  | nil => rfl
  | cons => simp at hL

/-- Pushing one index, in index space (the common core of all the push loops). -/
def pushCore (base lim fl em : Nat) (w : Mem) (i : Nat) : Nat × Nat × Mem :=
  if fl ≠ kListEnd ∧ em ≠ lim then (fl, em + 1, wr w (base + 4 * fl + (em + 1)) i)
  else (i, 0, wr w (base + 4 * i) fl)

/-- Indices of objects of a span with index step `st`. -/
def IsIdx (st i : Nat) : Prop := ∃ a, i = st * a

theorem idx_apart {st i j : Nat} (hi : IsIdx st i) (hj : IsIdx st j) (hne : i ≠ j) :
    i + st ≤ j ∨ j + st ≤ i := by
  obtain ⟨a, rfl⟩ := hi
  obtain ⟨b, rfl⟩ := hj
  rcases Nat.lt_trichotomy a b with h | h | h
  · left
    have := Nat.mul_le_mul_left st (show a + 1 ≤ b from h)
    rw [Nat.mul_add] at this; omega
  · subst h; exact absurd rfl hne
  · right
    have := Nat.mul_le_mul_left st (show b + 1 ≤ a from h)
    rw [Nat.mul_add] at this; omega

/-- A word of object `j` is no word of object `i`. -/
theorem word_apart {st lim base i j k m : Nat} (hl : lim = 4 * st - 1) (hst : 0 < st)
    (hi : IsIdx st i) (hj : IsIdx st j) (hne : i ≠ j) (hk : k ≤ lim) (hm : m ≤ lim) :
    base + 4 * i + k ≠ base + 4 * j + m := by
  rcases idx_apart hi hj hne with h | h <;> omega

theorem wr_ne {w : Mem} {a v x : Nat} (h : x ≠ a) : wr w a v x = w x := by simp [wr, h]
theorem wr_eq (w : Mem) (a v : Nat) : wr w a v a = v := by simp [wr]

theorem pushCore_spec {w : Mem} {base lim st fl em i : Nat} {L : List Nat}
    (hl : lim = 4 * st - 1) (hst : 0 < st)
    (h : Chain w base lim fl em L) (hnd : L.Nodup) (hL : ∀ x ∈ L, IsIdx st x) (hi : IsIdx st i)
    (hin : i ∉ L) (hne : i ≠ kListEnd) :
    ∀ fl' em' w', pushCore base lim fl em w i = (fl', em', w') →
      Chain w' base lim fl' em' (i :: L) ∧ fl' ≠ kListEnd ∧
      (∀ a, (∀ x ∈ i :: L, ∀ k ≤ lim, a ≠ base + 4 * x + k) → w' a = w a) := by
  intro fl' em' w' heq
  unfold pushCore at heq
  split at heq
  · rename_i hc
    obtain ⟨l, he, hch, rfl⟩ := h.inv hc.1
    simp only [Prod.mk.injEq] at heq
    obtain ⟨rfl, rfl, rfl⟩ := heq
    have hnl : fl ∉ l := by
      have := (List.nodup_append.1 hnd).2.1
      exact (List.nodup_cons.1 this).1
    have hfr : Chain (wr w (base + 4 * fl + (em + 1)) i) base lim
        (wr w (base + 4 * fl + (em + 1)) i (base + 4 * fl)) lim l := by
      rw [wr_ne (by omega)]
      apply hch.frame
      intro x hx k hk
      apply wr_ne
      exact word_apart hl hst (hL x (by simp [hx])) (hL fl (by simp)) (fun e => hnl (e ▸ hx)) hk
        (by omega)
    refine ⟨?_, hc.1, ?_⟩
    · have := Chain.cons (w := wr w (base + 4 * fl + (em + 1)) i) (lim := lim) fl (em + 1) l hc.1
        (by omega) hfr
      rw [List.range_succ_eq_map, List.map_cons, List.map_map] at this
      rw [show em + 1 - 0 = em + 1 from rfl, wr_eq] at this
      have e : (List.range em).map
          ((fun k => wr w (base + 4 * fl + (em + 1)) i (base + 4 * fl + (em + 1 - k))) ∘ Nat.succ) =
          (List.range em).map (fun k => w (base + 4 * fl + (em - k))) := by
        apply List.map_congr_left
        intro k hk
        simp only [Function.comp_apply, Nat.succ_eq_add_one]
        rw [show em + 1 - (k + 1) = em - k by omega]
        exact wr_ne (by omega)
      rw [e] at this
      exact this
    · intro a ha
      exact wr_ne (ha fl (by simp) (em + 1) (by omega))
  · rename_i hc
    simp only [Prod.mk.injEq] at heq
    obtain ⟨rfl, rfl, rfl⟩ := heq
    refine ⟨?_, hne, ?_⟩
    · have hfr : Chain (wr w (base + 4 * i) fl) base lim fl em L := by
        apply h.frame
        intro x hx k hk
        apply wr_ne
        have := word_apart (base := base) hl hst (hL x hx) hi (fun e => hin (e ▸ hx)) hk
          (Nat.zero_le lim)
        omega
      have hfr' : Chain (wr w (base + 4 * i) fl) base lim (wr w (base + 4 * i) fl (base + 4 * i)) lim
          L := by
        rw [wr_eq]
        by_cases hfl : fl = kListEnd
        · subst hfl
          rw [h.end_nil]; exact .nil _
        · have : em = lim := by
            apply Classical.byContradiction
            intro hh; exact hc ⟨hfl, hh⟩
          rw [← this]; rw [this] at hfr ⊢; exact hfr
      simpa using Chain.cons i 0 L hne (Nat.zero_le _) hfr'
    · intro a ha
      have := ha i (by simp) 0 (Nat.zero_le _)
      exact wr_ne (by omega)

/-- Pushing a list of indices. -/
def pushAll (base lim : Nat) : Nat → Nat → Mem → List Nat → Nat × Nat × Mem
  | fl, em, w, [] => (fl, em, w)
  | fl, em, w, i :: is =>
    match pushCore base lim fl em w i with
    | (fl', em', w') => pushAll base lim fl' em' w' is

theorem pushAll_spec {base lim st : Nat} (hl : lim = 4 * st - 1) (hst : 0 < st) :
    ∀ (is : List Nat) (w : Mem) (fl em : Nat) (L : List Nat), Chain w base lim fl em L →
      (is.reverse ++ L).Nodup → (∀ x ∈ is.reverse ++ L, IsIdx st x) → (∀ x ∈ is, x ≠ kListEnd) →
      ∀ fl' em' w', pushAll base lim fl em w is = (fl', em', w') →
        Chain w' base lim fl' em' (is.reverse ++ L) ∧
        (∀ a, (∀ x ∈ is.reverse ++ L, ∀ k ≤ lim, a ≠ base + 4 * x + k) → w' a = w a) := by
  intro is
  induction is with
  | nil =>
    intro w fl em L h _ _ _ fl' em' w' heq
    simp only [pushAll, Prod.mk.injEq] at heq
    obtain ⟨rfl, rfl, rfl⟩ := heq
    exact ⟨by simpa using h, fun _ _ => rfl⟩
  | cons i is ih =>
    intro w fl em L h hnd hx hne fl' em' w' heq
    simp only [pushAll] at heq
    generalize hp : pushCore base lim fl em w i = r at heq
    obtain ⟨fl1, em1, w1⟩ := r
    simp only [List.reverse_cons, List.append_assoc, List.singleton_append] at hnd hx ⊢
    have hnd' := (List.nodup_append.1 hnd).2.1
    obtain ⟨c1, _, c3⟩ := pushCore_spec hl hst h (List.nodup_cons.1 hnd').2
      (fun x hxL => hx x (by simp [hxL])) (hx i (by simp)) (List.nodup_cons.1 hnd').1
      (hne i (by simp)) _ _ _ hp
    obtain ⟨d1, d2⟩ := ih w1 fl1 em1 (i :: L) c1 hnd hx (fun x h => hne x (by simp [h])) _ _ _ heq
    refine ⟨d1, fun a ha => ?_⟩
    rw [d2 a ha, c3 a (fun x hx => ha x (by
      rcases List.mem_cons.1 hx with h | h <;> simp [h]))]

/-- Popping: exactly the first `n` of the represented list, in order. -/
theorem listPopLoop_spec {g : Geo} {w : Mem} (hs : g.start % 2 = 0) :
    ∀ (n fl em : Nat) (L : List Nat),
      Chain w (g.start / 2) (g.size / 2 - 1) fl em L →
      ∀ out fl' em', listPopLoop g w n fl em = (out, fl', em') →
        out = (L.take n).map (idxToPtr g.start) ∧
        Chain w (g.start / 2) (g.size / 2 - 1) fl' em' (L.drop n) := by
  intro n
  induction n using Nat.strongRecOn with
  | ind n ih =>
    intro fl em L h out fl' em' heq
    rw [listPopLoop] at heq
    split at heq
    · rename_i h0
      subst h0
      simp only [Prod.mk.injEq] at heq
      obtain ⟨rfl, rfl, rfl⟩ := heq
      exact ⟨by simp, by simpa using h⟩
    · rename_i hn
      split at heq
      · rename_i he
        subst he
        simp only [Prod.mk.injEq] at heq
        obtain ⟨rfl, rfl, rfl⟩ := heq
        rw [h.end_nil]
        exact ⟨by simp, by simpa using Chain.nil _⟩
      · rename_i he
        obtain ⟨l, hle, hch, rfl⟩ := h.inv he
        have ehost : idxToPtr g.start fl / 2 = g.start / 2 + 4 * fl := by
          simp only [idxToPtr, Nat.shiftLeft_eq]; omega
        simp only [ehost] at heq
        by_cases hgt : em > n ∨ em = n
        · have ei : (if em > n then n else em) = n := by split <;> omega
          rw [ei, if_pos rfl] at heq
          simp only [Prod.mk.injEq] at heq
          obtain ⟨rfl, rfl, rfl⟩ := heq
          have hlen : ((List.range em).map
              (fun i => w (g.start / 2 + 4 * fl + (em - i)))).length = em := by simp
          constructor
          · rw [List.take_append_of_le_length (by rw [hlen]; omega), ← List.map_take,
              List.take_range, show min n em = n by omega, List.map_map]
            rfl
          · rw [List.drop_append_of_le_length (by rw [hlen]; omega)]
            have := Chain.cons (w := w) (base := g.start / 2) (lim := g.size / 2 - 1) fl (em - n) l he
              (by omega) hch
            have e : ((List.range em).map (fun i => w (g.start / 2 + 4 * fl + (em - i)))).drop n =
                (List.range (em - n)).map (fun i => w (g.start / 2 + 4 * fl + (em - n - i))) := by
              apply List.ext_getElem
              · simp
              · intro i h1 h2
                simp only [List.getElem_drop, List.getElem_map, List.getElem_range]
                rw [show em - (n + i) = em - n - i by omega]
            rw [e]; exact this
        · have ei : (if em > n then n else em) = em := by split <;> omega
          rw [ei, if_neg (by omega)] at heq
          generalize hr : listPopLoop g w (n - em - 1) (w (g.start / 2 + 4 * fl)) (g.size / 2 - 1) = r
            at heq
          obtain ⟨rest, fl2, em2⟩ := r
          simp only [Prod.mk.injEq] at heq
          obtain ⟨rfl, rfl, rfl⟩ := heq
          obtain ⟨c1, c2⟩ := ih (n - em - 1) (by omega) _ _ _ hch _ _ _ hr
          have hlen : ((List.range em).map
              (fun i => w (g.start / 2 + 4 * fl + (em - i)))).length = em := by simp
          constructor
          · rw [List.take_append, List.take_of_length_le (by rw [hlen]; omega), hlen,
              show n - em = (n - em - 1) + 1 by omega, List.take_succ_cons, c1, List.map_append,
              List.map_map, List.map_cons]
            rfl
          · rw [List.drop_append, List.drop_of_length_le (by rw [hlen]; omega), hlen,
              show n - em = (n - em - 1) + 1 by omega, List.drop_succ_cons, List.nil_append]
            exact c2

end Verif.Span
