import Verif.Slab.AllEffect
/-! No step loses or duplicates an object. -/
namespace Verif.Slab

theorem thread_effect {cfg} {w w' : W} (k : K cfg w) {i : Nat} {th : Thread} {cpu : Nat} {ch : Ch} {out : Out}
    (hi : w.thr[i]? = some th) (hcpu : th.cpu = some cpu) (h : stepThread cfg w i th cpu ch = some (w', out)) :
    Effect cfg w w' cpu th out := by
  have ok := k.thr i th hi
  unfold ThOK at ok
  unfold stepThread at h
  cases hpc : th.pc <;> rw [hpc] at h <;> simp only at h
  case idle =>
    injection h with h; injection h with h1 h2; subst h1 h2
    exact ⟨fun _ _ _ _ => ⟨rfl, rfl⟩, rfl⟩
  case remote c =>
    rw [hpc] at ok
    simp only at ok
    obtain ⟨st, hst, -⟩ := ok
    simp only [hst] at h
    cases st
    case locked => exact stop_effect k hst trivial h
    case stopping => exact stop_effect k hst trivial h
    case fencing => exact stop_effect k hst trivial h
    case inited => exact stop_effect k hst trivial h
    case started => exact stop_effect k hst trivial h
    case fin => exact stop_effect k hst trivial h
    all_goals exact body_effect k hst trivial h
  case all =>
    rw [hpc] at ok
    simp only at ok
    obtain ⟨r, hr, -⟩ := ok
    simp only [hr] at h
    cases hp : r.post with
    | none => rw [hp] at h; exact pre_effect k hr hp h
    | some p => rw [hp] at h; exact post_effect k hr hp h
  case push0 => exact push_effect k hi hcpu hpc trivial h
  case push1 => exact push_effect k hi hcpu hpc trivial h
  case push2 => exact push_effect k hi hcpu hpc trivial h
  case push3 => exact push_effect k hi hcpu hpc trivial h
  case push4 => exact push_effect k hi hcpu hpc trivial h
  case pop0 => exact pop_effect k hi hcpu hpc trivial h
  case pop1 => exact pop_effect k hi hcpu hpc trivial h
  case pop2 => exact pop_effect k hi hcpu hpc trivial h
  case pop3 => exact pop_effect k hi hcpu hpc trivial h
  case pop4 => exact pop_effect k hi hcpu hpc trivial h
  case pushB0 => exact pushB_effect k hi hcpu hpc trivial h
  case pushB1 => exact pushB_effect k hi hcpu hpc trivial h
  case pushB2 => exact pushB_effect k hi hcpu hpc trivial h
  case pushB3 => exact pushB_effect k hi hcpu hpc trivial h
  case popB0 => exact popB_effect k hi hcpu hpc trivial h
  case popB1 => exact popB_effect k hi hcpu hpc trivial h
  case popB2 => exact popB_effect k hi hcpu hpc trivial h
  case popB3 => exact popB_effect k hi hcpu hpc trivial h
  case grow0 => exact grow_effect k hi hcpu hpc trivial h
  case grow1 => exact grow_effect k hi hcpu hpc trivial h
  case grow2 => exact grow_effect k hi hcpu hpc trivial h
  case grow3 => exact grow_effect k hi hcpu hpc trivial h
  case grow4 => exact grow_effect k hi hcpu hpc trivial h
  case grow5 => exact grow_effect k hi hcpu hpc trivial h
  all_goals exact cache_effect h

/-! ### Hands -/

/-- Objects in the hands of the threads. -/
def W.hands (w : W) : List (Nat × Nat) := w.thr.flatMap fun th => th.pc.hand

/-- The threads have let go of exactly `l`. -/
def LetGo (w w' : W) (l : List (Nat × Nat)) : Prop := ∀ a, w.hands.count a = w'.hands.count a + l.count a

theorem count_flatMap_set {α β} [BEq β] (f : α → List β) (a : β) : ∀ (l : List α) (i : Nat) (x y : α), l[i]? = some x →
    (l.flatMap f).count a + (f y).count a = ((l.set i y).flatMap f).count a + (f x).count a
  | [], i, x, y, h => by simp at h
  | z :: l, 0, x, y, h => by
    simp at h; subst h
    simp only [List.set_cons_zero, List.flatMap_cons, List.count_append]; omega
  | z :: l, i + 1, x, y, h => by
    have := count_flatMap_set f a l i x y (by simpa using h)
    simp only [List.set_cons_succ, List.flatMap_cons, List.count_append]; omega

theorem restart_hand (pc : PC) : pc.restart.hand = pc.hand := by cases pc <;> rfl

theorem LetGo.set {w w' : W} {i : Nat} {th th' : Thread} {l : List (Nat × Nat)} (hi : w.thr[i]? = some th)
    (h : w'.thr = w.thr.set i th') (hl : ∀ a, th.pc.hand.count a = th'.pc.hand.count a + l.count a) : LetGo w w' l := by
  intro a
  have := count_flatMap_set (fun th : Thread => th.pc.hand) a w.thr i th th' hi
  have := hl a
  unfold W.hands
  rw [h]
  omega

theorem LetGo.same {w w' : W} (h : w'.thr = w.thr) : LetGo w w' [] := by
  intro a; unfold W.hands; rw [h]; simp

theorem fence_hands (w : W) (i c : Nat) : (w.fence i c).hands = w.hands := by
  unfold W.hands W.fence
  simp only
  rw [List.flatMap_def, List.flatMap_def]
  congr 1
  apply List.ext_getElem?
  intro j
  rw [List.getElem?_map, List.getElem?_map, List.getElem?_mapIdx]
  cases w.thr[j]? with
  | none => rfl
  | some th =>
    simp only [Option.map_some]
    split
    · show some th.fix.pc.hand = _
      unfold Thread.fix
      rw [restart_hand]
    · rfl

theorem LetGo.fence {w w1 w' : W} {i c : Nat} (h : w'.thr = (w1.fence i c).thr) (h1 : LetGo w w1 []) : LetGo w w' [] := by
  intro a
  rw [h1 a]
  have : w'.hands = (w1.fence i c).hands := by unfold W.hands; rw [h]
  rw [this, fence_hands]

/-- What a thread lets go of. -/
def released (th : Thread) : Out → List (Nat × Nat)
  | .pushed _ | .pushedB _ => th.pc.hand
  | _ => []

theorem thread_hands {cfg} {w w' : W} (k : K cfg w) {i : Nat} {th : Thread} {cpu : Nat} {ch : Ch} {out : Out}
    (hi : w.thr[i]? = some th) (h : stepThread cfg w i th cpu ch = some (w', out)) :
    LetGo w w' (released th out) := by
  have ok := k.thr i th hi
  unfold ThOK at ok
  unfold stepThread at h
  cases hpc : th.pc <;> rw [hpc] at h <;> simp only at h
  case idle =>
    injection h with h; injection h with h1 h2; subst h1 h2
    exact LetGo.same rfl
  case remote c =>
    rw [hpc] at ok
    simp only at ok
    obtain ⟨st, hst, -⟩ := ok
    simp only [hst] at h
    have nil : ∀ {th' : Thread}, th'.pc.hand = [] → ∀ a, th.pc.hand.count a = th'.pc.hand.count a + ([] : List (Nat × Nat)).count a := by
      intro th' h a; rw [h, hpc]; rfl
    cases st <;> simp only [stepStop, stepBody] at h
    case locked p =>
      split at h
      · injection h with h; injection h with h1 h2; subst h1 h2
        cases p <;> exact LetGo.set hi rfl (nil rfl)
      · split at h
        · cases h
        · injection h with h; injection h with h1 h2; subst h1 h2; exact LetGo.same rfl
    case stopping p =>
      split at h
      · injection h with h; injection h with h1 h2; subst h1 h2; exact LetGo.set hi rfl (nil (by rw [hpc]; rfl))
      · split at h
        · injection h with h; injection h with h1 h2; subst h1 h2; exact LetGo.set hi rfl (nil (by rw [hpc]; rfl))
        · injection h with h; injection h with h1 h2; subst h1 h2
          exact LetGo.fence (w1 := w.set i { th with vcpu := cpu }) rfl (LetGo.set hi rfl (nil (by rw [hpc]; rfl)))
    case fencing p todo =>
      split at h
      · injection h with h; injection h with h1 h2; subst h1 h2
        exact LetGo.fence (w1 := w) rfl (LetGo.same rfl)
      · split at h <;> (injection h with h; injection h with h1 h2; subst h1 h2; exact LetGo.same rfl)
    case inited =>
      split at h
      · injection h with h; injection h with h1 h2; subst h1 h2; exact LetGo.same rfl
      · cases h
    case started => injection h with h; injection h with h1 h2; subst h1 h2; exact LetGo.same rfl
    case fin p =>
      injection h with h; injection h with h1 h2; subst h1 h2
      cases p <;> exact LetGo.set hi rfl (nil rfl)
    case ready p =>
      cases p with
      | true =>
        simp only at h
        split at h
        · injection h with h; injection h with h1 h2; subst h1 h2; exact LetGo.same rfl
        · cases h
      | false =>
        simp only at h
        split at h
        · split at h
          · injection h with h; injection h with h1 h2; subst h1 h2; exact LetGo.same rfl
          · cases h
        all_goals (injection h with h; injection h with h1 h2; subst h1 h2; exact LetGo.same rfl)
    all_goals
      repeat' split at h
      all_goals first
        | (cases h; done)
        | (injection h with h; injection h with h1 h2; subst h1 h2; exact LetGo.same rfl)
  case all =>
    rw [hpc] at ok
    simp only at ok
    obtain ⟨r, hr, -⟩ := ok
    simp only [hr] at h
    have nil : ∀ {th' : Thread}, th'.pc.hand = [] → ∀ a, th.pc.hand.count a = th'.pc.hand.count a + ([] : List (Nat × Nat)).count a := by
      intro th' h a; rw [h, hpc]; rfl
    cases hp : r.post with
    | none =>
      rw [hp] at h
      simp only [stepPre] at h
      repeat' split at h
      all_goals first
        | (cases h; done)
        | (injection h with h; injection h with h1 h2; subst h1 h2; exact LetGo.same rfl)
        | (injection h with h; injection h with h1 h2; subst h1 h2; exact LetGo.fence (w1 := w) rfl (LetGo.same rfl))
        | (injection h with h; injection h with h1 h2; subst h1 h2; exact LetGo.set hi rfl (nil (by rw [hpc]; rfl)))
    | some p =>
      rw [hp] at h
      simp only [stepPost] at h
      repeat' split at h
      all_goals first
        | (cases h; done)
        | (injection h with h; injection h with h1 h2; subst h1 h2; exact LetGo.same rfl)
        | (injection h with h; injection h with h1 h2; subst h1 h2; exact LetGo.set hi rfl (nil rfl))
  all_goals
    simp only [stepPush, stepPop, stepPushB, stepPopB, stepGrow, stepCache] at h
    repeat' split at h
    all_goals first
      | (cases h; done)
      | (injection h with h; injection h with h1 h2; subst h1 h2
         exact LetGo.set hi rfl (fun a => by simp [released, hpc, PC.hand]))
      | (injection h with h; injection h with h1 h2; subst h1 h2; exact LetGo.same rfl)

/-! ### Everything -/

def W.cells (cfg : Cfg) (w : W) : List (Nat × Nat) :=
  (keys cfg).flatMap (fun a => (w.cell a.1 a.2).map fun o => (a.2, o))

theorem everything_count (cfg : Cfg) (w : W) (a : Nat × Nat) :
    (w.everything cfg).count a = w.held.count a + w.hands.count a + (w.cells cfg).count a := by
  unfold W.everything W.cells W.hands
  rw [List.count_append, List.count_append]

theorem mem_keys {cfg : Cfg} {c k : Nat} : (c, k) ∈ keys cfg ↔ c < cfg.n ∧ Valid cfg.nc k := by
  unfold keys Valid
  simp only [List.mem_flatMap, List.mem_range, List.mem_map, Prod.mk.injEq]
  constructor
  · rintro ⟨c', h, k', h', rfl, rfl⟩
    omega
  · rintro ⟨h1, h2, h3⟩
    exact ⟨c, h1, k - 1, by omega, rfl, by omega⟩

theorem keys_nodup (cfg : Cfg) : (keys cfg).Nodup := by
  unfold keys
  rw [List.flatMap_def, List.nodup_iff_pairwise_ne, List.pairwise_flatten]
  constructor
  · intro l hl
    rw [List.mem_map] at hl
    obtain ⟨c, _, rfl⟩ := hl
    rw [List.pairwise_map]
    refine List.Pairwise.imp ?_ (List.nodup_iff_pairwise_ne.mp List.nodup_range)
    intro a b h e
    injection e with _ e
    omega
  · rw [List.pairwise_map]
    refine List.Pairwise.imp ?_ (List.nodup_iff_pairwise_ne.mp List.nodup_range)
    intro a b h x hx y hy e
    rw [List.mem_map] at hx hy
    obtain ⟨_, _, rfl⟩ := hx
    obtain ⟨_, _, rfl⟩ := hy
    injection e with e _
    exact h e

theorem count_flatMap_congr {α β} [BEq β] {f g : α → List β} {l : List α} (h : ∀ x ∈ l, f x = g x) (a : β) :
    (l.flatMap f).count a = (l.flatMap g).count a := by
  induction l with
  | nil => rfl
  | cons x l ih =>
    simp only [List.flatMap_cons, List.count_append]
    rw [h x (List.mem_cons_self ..), ih (fun y hy => h y (List.mem_cons_of_mem _ hy))]

theorem count_flatMap_update {α β} [BEq β] {f g : α → List β} {l : List α} {x : α} (hn : l.Nodup) (hx : x ∈ l)
    (h : ∀ y ∈ l, y ≠ x → g y = f y) (a : β) :
    (l.flatMap g).count a + (f x).count a = (l.flatMap f).count a + (g x).count a := by
  induction l with
  | nil => cases hx
  | cons z l ih =>
    rw [List.nodup_cons] at hn
    simp only [List.flatMap_cons, List.count_append]
    rcases List.mem_cons.mp hx with e | hx'
    · subst e
      have := count_flatMap_congr (f := g) (g := f) (l := l)
        (fun y hy => h y (List.mem_cons_of_mem _ hy) (fun e => hn.1 (e ▸ hy))) a
      omega
    · have := ih hn.2 hx' (fun y hy => h y (List.mem_cons_of_mem _ hy))
      rw [h z (List.mem_cons_self ..) (fun e => hn.1 (e ▸ hx'))]
      omega

theorem Same.cells {cfg} {w w' : W} (s : Same cfg w w') (a : Nat × Nat) : (w'.cells cfg).count a = (w.cells cfg).count a := by
  apply count_flatMap_congr
  rintro ⟨c, k⟩ hx
  have := mem_keys.mp hx
  rw [(s c k this.1 this.2).1]

theorem SameBut.cells {cfg} {w w' : W} {c k : Nat} (s : SameBut cfg w w' c k) (hc : c < cfg.n) (hk : Valid cfg.nc k)
    (a : Nat × Nat) :
    (w'.cells cfg).count a + ((w.cell c k).map fun o => (k, o)).count a =
    (w.cells cfg).count a + ((w'.cell c k).map fun o => (k, o)).count a := by
  unfold W.cells
  have := count_flatMap_update (l := keys cfg) (x := (c, k)) (f := fun a : Nat × Nat => (w.cell a.1 a.2).map fun o => (a.2, o))
    (g := fun a : Nat × Nat => (w'.cell a.1 a.2).map fun o => (a.2, o)) (keys_nodup cfg) (mem_keys.mpr ⟨hc, hk⟩) (by
      rintro ⟨c', k'⟩ hx hne
      have hx := mem_keys.mp hx
      simp only
      rw [(s c' k' hx.1 hx.2 (fun e => hne (by rw [e.1, e.2]))).1]) a
  exact this

theorem K.cls {cfg w} (k : K cfg w) {i : Nat} {th : Thread} (hi : w.thr[i]? = some th) {a : Nat} (h : th.pc.cls = some a) :
    Valid cfg.nc a := by
  have ok := k.thr i th hi
  unfold ThOK at ok
  cases e : th.pc <;> rw [e] at ok h <;> simp only [PC.cls, Option.some.injEq, reduceCtorEq] at h <;> subst h
  case grow4 => exact ok.1.1
  case grow5 => exact ok.1.1
  all_goals exact ok.1

theorem thread_conserves {cfg} {w w' : W} (k : K cfg w) {i : Nat} {th : Thread} {cpu : Nat} {ch : Ch} {out : Out}
    (hi : w.thr[i]? = some th) (hcpu : th.cpu = some cpu) (h : stepThread cfg w i th cpu ch = some (w', out)) :
    (w'.everything cfg).Perm (w.everything cfg) := by
  have ef := thread_effect k hi hcpu h
  have hh := thread_hands k hi h
  have hn := k.cpus i th cpu hi hcpu
  rw [List.perm_iff_count]
  intro a
  rw [everything_count, everything_count]
  have ha := hh a
  cases out
  case tau =>
    obtain ⟨s, e⟩ := ef
    rw [s.cells, e, ha]; rfl
  case cached =>
    obtain ⟨s, e⟩ := ef
    rw [s.cells, e, ha]; rfl
  case pushed b =>
    cases b
    · obtain ⟨x, o, h1, h2, s, e, _⟩ := ef
      rw [s.cells, e, ha]
      simp only [released, h1, List.count_cons, List.count_nil]
      omega
    · obtain ⟨x, o, h1, h2, s, e, e2, _⟩ := ef
      have := s.cells hn (k.cls hi h2) a
      rw [e2, List.map_append, List.count_append] at this
      rw [e, ha]
      simp only [released, h1]
      simp only [List.map_cons, List.map_nil] at this
      omega
  case popped b =>
    cases b
    · obtain ⟨x, h2, s, e, _⟩ := ef
      rw [s.cells, e, ha]; rfl
    · obtain ⟨x, h2, s, e, e2, _⟩ := ef
      have := s.cells hn (k.cls hi h2) a
      rw [e2, List.map_append, List.count_append] at this
      rw [e, ha]
      simp only [released, List.count_nil]
      simp only [List.map_cons, List.map_nil, List.count_cons, List.count_nil] at this ⊢
      omega
  case pushedB n =>
    obtain ⟨x, l, h1, h2, s, e, _, e2, _⟩ := ef
    have := s.cells hn (k.cls hi h2) a
    rw [e2, List.map_append, List.count_append, List.map_reverse, List.count_reverse] at this
    rw [e, ha]
    simp only [released, h1]
    have h3 : (l.map fun o => (x, o)).count a = ((l.take (l.length - n)).map fun o => (x, o)).count a +
        ((l.drop (l.length - n)).map fun o => (x, o)).count a := by
      rw [← List.count_append, ← List.map_append, List.take_append_drop]
    rw [h3, List.count_append]
    omega
  case poppedB l =>
    obtain ⟨x, h2, s, e, _, e2, _⟩ := ef
    have := s.cells hn (k.cls hi h2) a
    rw [e2, List.map_append, List.count_append, List.map_reverse, List.count_reverse] at this
    rw [e, ha]
    simp only [released, List.count_nil]
    rw [List.count_append]
    omega
  case grew n =>
    obtain ⟨x, h2, s, e, e2, _⟩ := ef
    have := s.cells hn (k.cls hi h2) a
    rw [e2] at this
    rw [e, ha]
    simp only [released, List.count_nil]
    omega
  case handed c x l cap =>
    obtain ⟨⟨h1, h2⟩, s, e, ⟨p, q, e2, e3⟩, _⟩ := ef
    have := s.cells h1 h2 a
    rw [e2, e3] at this
    simp only [List.map_append, List.count_append] at this
    rw [e, ha]
    simp only [released, List.count_nil]
    rw [List.count_append]
    omega
  case shrunk c x n =>
    obtain ⟨⟨h1, h2⟩, s, e, e2, _⟩ := ef
    have := s.cells h1 h2 a
    rw [e2] at this
    rw [e, ha]
    simp only [released, List.count_nil]
    omega
  case grewOther c x n =>
    obtain ⟨⟨h1, h2⟩, s, e, e2, _⟩ := ef
    have := s.cells h1 h2 a
    rw [e2] at this
    rw [e, ha]
    simp only [released, List.count_nil]
    omega

end Verif.Slab
