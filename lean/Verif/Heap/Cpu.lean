import Verif.CpuCache.Props
/-!
What the steps of the per-CPU caches mean for the layer below them, in the form in which the composition needs it.
-/
namespace Verif.CpuCache
open Slab (Valid GoodObj)

variable {cfg : Cfg} {limit : Nat}

/-- The request a thread has put to the backing cache: class and number of objects
(cpu_cache.h:1183, 1226-1228). -/
def St.asks : St → Option (Nat × Nat)
  | .direct k => some (k, 1)
  | .fetch r => some (r.k, min kMaxObjectsToMove (r.target - r.total))
  | _ => none

/-- A step of thread `i` changes the program of no other thread. -/
theorem stepTh_th {w w' : W} {i : Nat} {ch : Ch} {st : St} {out : Out} (hs : stepTh cfg w i ch st = some (w', out)) :
    w'.th = w.th ∨ ∃ st', w'.th = w.th.set i st' := by
  cases st <;> simp only [stepTh, stepFast, stepGrow, stepRefill, stepOver, stepCpu, W.act, W.call, W.start, W.release, W.addAvail, W.handle] at hs
  case steal dst b acq ph out =>
    cases ph <;> cases out <;> simp only [stepSteal, W.act, W.call, W.start, W.release, W.addAvail] at hs
    all_goals (repeat' split at hs)
    all_goals first
      | (cases hs; done)
      | (injection hs with hs; injection hs with h1 h2; subst h1 h2; first | exact Or.inl rfl | exact Or.inr ⟨_, rfl⟩ | (split <;> first | exact Or.inl rfl | exact Or.inr ⟨_, rfl⟩))
      | simp_all
    all_goals (obtain ⟨rfl, rfl⟩ := hs; exact Or.inr ⟨_, rfl⟩)
  case all out =>
    cases out <;> simp only [stepAll, W.act, W.release, W.handle, W.addAvail] at hs
    all_goals (repeat' split at hs)
    all_goals first
      | (cases hs; done)
      | (injection hs with hs; injection hs with h1 h2; subst h1 h2; first | exact Or.inl rfl | exact Or.inr ⟨_, rfl⟩)
      | simp_all
    all_goals (obtain ⟨rfl, rfl⟩ := hs; exact Or.inr ⟨_, rfl⟩)
  case drain c d b out =>
    cases out
    all_goals (repeat' split at hs)
    all_goals first
      | (cases hs; done)
      | (injection hs with hs; injection hs with h1 h2; subst h1 h2; first | exact Or.inl rfl | exact Or.inr ⟨_, rfl⟩)
      | simp_all
    all_goals (obtain ⟨rfl, rfl⟩ := hs; exact Or.inr ⟨_, rfl⟩)
  case classes c d out =>
    cases out
    all_goals (repeat' split at hs)
    all_goals first
      | (cases hs; done)
      | (injection hs with hs; injection hs with h1 h2; subst h1 h2; first | exact Or.inl rfl | exact Or.inr ⟨_, rfl⟩)
      | simp_all
    all_goals (obtain ⟨rfl, rfl⟩ := hs; exact Or.inr ⟨_, rfl⟩)
  case retry q c =>
    cases q
    all_goals (repeat' split at hs)
    all_goals first
      | (cases hs; done)
      | (injection hs with hs; injection hs with h1 h2; subst h1 h2; first | exact Or.inl rfl | exact Or.inr ⟨_, rfl⟩)
  all_goals (repeat' split at hs)
  all_goals first
    | (cases hs; done)
    | (injection hs with hs; injection hs with h1 h2; subst h1 h2; first | exact Or.inl rfl | exact Or.inr ⟨_, rfl⟩)
    | simp_all
  all_goals (obtain ⟨rfl, rfl⟩ := hs; exact Or.inr ⟨_, rfl⟩)

/-- Batches leaving in a step of a thread. -/
theorem stepTh_len {w w' : W} {i : Nat} {ch : Ch} {st : St} {out : Out} (hs : stepTh cfg w i ch st = some (w', out)) :
    ∀ k l, out = .toBacking k l → l ≠ [] ∧ l.length ≤ kMaxObjectsToMove := by
  cases st <;> simp only [stepTh, stepFast, stepGrow, stepRefill, stepOver, stepCpu, W.act, W.call, W.start, W.release, W.addAvail, W.handle] at hs
  case steal dst b acq ph out =>
    cases ph <;> cases out <;> simp only [stepSteal, W.act, W.call, W.start, W.release, W.addAvail] at hs
    all_goals (repeat' split at hs)
    all_goals first
      | (cases hs; done)
      | (injection hs with hs; injection hs with h1 h2; subst h1 h2; intro k l h; first | (cases h; done) | (cases h; simp only [not_or, Nat.not_lt] at *; constructor <;> (first | assumption | (simp_all; done) | omega)))
      | simp_all
    all_goals (obtain ⟨rfl, rfl⟩ := hs; intro k l h; first | (cases h; done) | (cases h; simp only [not_or, Nat.not_lt] at *; constructor <;> (first | assumption | (simp_all; done) | omega)))
  case all out =>
    cases out <;> simp only [stepAll, W.act, W.release, W.handle, W.addAvail] at hs
    all_goals (repeat' split at hs)
    all_goals first
      | (cases hs; done)
      | (injection hs with hs; injection hs with h1 h2; subst h1 h2; intro k l h; first | (cases h; done) | (cases h; simp only [not_or, Nat.not_lt] at *; constructor <;> (first | assumption | (simp_all; done) | omega)))
      | simp_all
    all_goals (obtain ⟨rfl, rfl⟩ := hs; intro k l h; first | (cases h; done) | (cases h; simp only [not_or, Nat.not_lt] at *; constructor <;> (first | assumption | (simp_all; done) | omega)))
  case drain c d b out =>
    cases out
    all_goals (repeat' split at hs)
    all_goals first
      | (cases hs; done)
      | (injection hs with hs; injection hs with h1 h2; subst h1 h2; intro k l h; first | (cases h; done) | (cases h; simp only [not_or, Nat.not_lt] at *; constructor <;> (first | assumption | (simp_all; done) | omega)))
      | simp_all
    all_goals (obtain ⟨rfl, rfl⟩ := hs; intro k l h; first | (cases h; done) | (cases h; simp only [not_or, Nat.not_lt] at *; constructor <;> (first | assumption | (simp_all; done) | omega)))
  case classes c d out =>
    cases out
    all_goals (repeat' split at hs)
    all_goals first
      | (cases hs; done)
      | (injection hs with hs; injection hs with h1 h2; subst h1 h2; intro k l h; first | (cases h; done) | (cases h; simp only [not_or, Nat.not_lt] at *; constructor <;> (first | assumption | (simp_all; done) | omega)))
      | simp_all
    all_goals (obtain ⟨rfl, rfl⟩ := hs; intro k l h; first | (cases h; done) | (cases h; simp only [not_or, Nat.not_lt] at *; constructor <;> (first | assumption | (simp_all; done) | omega)))
  case retry q c =>
    cases q
    all_goals (repeat' split at hs)
    all_goals first
      | (cases hs; done)
      | (injection hs with hs; injection hs with h1 h2; subst h1 h2; intro k l h; first | (cases h; done) | (cases h; simp only [not_or, Nat.not_lt] at *; constructor <;> (first | assumption | (simp_all; done) | omega)))
  all_goals (repeat' split at hs)
  all_goals first
    | (cases hs; done)
    | (injection hs with hs; injection hs with h1 h2; subst h1 h2; intro k l h; first | (cases h; done) | (cases h; simp only [not_or, Nat.not_lt] at *; constructor <;> (first | assumption | (simp_all; done) | omega)))
    | simp_all
  all_goals (obtain ⟨rfl, rfl⟩ := hs; intro k l h; first | (cases h; done) | (cases h; simp only [not_or, Nat.not_lt] at *; constructor <;> (first | assumption | (simp_all; done) | omega)))

/-- A thread that waits for the backing cache stays where it is until it has its answer. -/
theorem waits {w w' : W} {e : Ev} {out : Out} (hp : Pre cfg w e) (hs : step cfg w e = some (w', out)) {i : Nat} {st : St}
    (hi : w.th[i]? = some st) (ha : st.asks ≠ none) (he : ∀ l, e ≠ .fetched i l) : w'.th[i]? = some st := by
  have idle : ∀ {j : Nat}, w.th[j]? = some .idle → j ≠ i := by
    rintro j h rfl
    rw [hi] at h; cases h; exact ha rfl
  have set : ∀ {j : Nat} {st' : St}, j ≠ i → (w.th.set j st')[i]? = some st := by
    intro j st' h; rw [List.getElem?_set_ne h, hi]
  have start : ∀ {w0 : W} {j : Nat} {op : Slab.Op} {st' : St}, w0.th = w.th → w0.start cfg j op st' = some (w', out) →
      w'.th = w.th.set j st' := by
    intro w0 j op st' h0 h1
    unfold W.start W.call at h1
    split at h1
    · injection h1 with h1; injection h1 with h3 h4; subst h3 h4; rw [← h0]; rfl
    · cases h1
  have sch : ∀ {ev : Slab.Ev}, w.sched cfg ev = some (w', out) → w'.th = w.th := by
    intro ev h1
    simp only [W.sched, Option.map_eq_some_iff] at h1
    obtain ⟨x, -, h2⟩ := h1
    injection h2 with h3 h4; subst h3 h4; rfl
  cases e with
  | free j x o => rw [start (w0 := { w with user := w.user.erase (x, o) }) rfl hs]; exact set (idle hp.1)
  | malloc j x => rw [start rfl hs]; exact set (idle hp.1)
  | uncache j => rw [start rfl hs]; exact set (idle hp.1)
  | resize j nb ncaps lim => rw [start rfl hs]; exact set (idle hp.1)
  | release j => rw [start rfl hs]; exact set (idle hp.1)
  | drain j c => injection hs with hs; injection hs with h1 h2; subst h1 h2; exact set (idle hp.1)
  | classes j c => injection hs with hs; injection hs with h1 h2; subst h1 h2; exact set (idle hp.1)
  | steal j dst b => injection hs with hs; injection hs with h1 h2; subst h1 h2; exact set (idle hp.1)
  | act j ch =>
    simp only [step] at hs
    split at hs
    · next st' hj =>
      by_cases hji : j = i
      · subst hji
        rw [hi] at hj; cases hj
        cases st <;> simp only [St.asks, ne_eq, not_true_eq_false, reduceCtorEq, not_false_eq_true] at ha
        · simp only [stepTh, stepFast] at hs; cases hs; exact hi
        · simp only [stepTh, stepRefill] at hs
          split at hs
          · cases hs
          · cases hs; exact hi
      · rcases stepTh_th hs with h1 | ⟨st'', h1⟩
        · rw [h1]; exact hi
        · rw [h1]; exact set hji
    · cases hs
  | fetched j l =>
    have hji : j ≠ i := fun h => he l (by rw [h])
    simp only [step] at hs
    split at hs
    · injection hs with hs; injection hs with h1 h2; subst h1 h2; exact set hji
    · injection hs with hs; injection hs with h1 h2; subst h1 h2; exact set hji
    · cases hs
  | schedOut j => rw [sch hs]; exact hi
  | schedIn j c => rw [sch hs]; exact hi
  | signal j => rw [sch hs]; exact hi

/-- Batches given to the backing cache have admissible lengths. -/
theorem toBacking_len {w w' : W} {e : Ev} {k : Nat} {l : List Nat} (hs : step cfg w e = some (w', .toBacking k l)) :
    l ≠ [] ∧ l.length ≤ kMaxObjectsToMove := by
  have start : ∀ {w0 : W} {j : Nat} {op : Slab.Op} {st' : St}, w0.start cfg j op st' = some (w', .toBacking k l) → False := by
    intro w0 j op st' h1
    unfold W.start W.call at h1
    split at h1
    · injection h1 with h1; injection h1 with h3 h4; cases h4
    · cases h1
  have sch : ∀ {ev : Slab.Ev}, w.sched cfg ev = some (w', .toBacking k l) → False := by
    intro ev h1
    simp only [W.sched, Option.map_eq_some_iff] at h1
    obtain ⟨x, -, h2⟩ := h1
    injection h2 with h3 h4; cases h4
  cases e with
  | free j x o => exact (start hs).elim
  | malloc j x => exact (start hs).elim
  | uncache j => exact (start hs).elim
  | resize j nb ncaps lim => exact (start hs).elim
  | release j => exact (start hs).elim
  | drain j c => injection hs with hs; injection hs with h1 h2; cases h2
  | classes j c => injection hs with hs; injection hs with h1 h2; cases h2
  | steal j dst b => injection hs with hs; injection hs with h1 h2; cases h2
  | act j ch =>
    simp only [step] at hs
    split at hs
    · next st' hj =>
      exact stepTh_len hs k l rfl
    · cases hs
  | fetched j l =>
    simp only [step] at hs
    split at hs
    · injection hs with hs; injection hs with h1 h2; cases h2
    · injection hs with hs; injection hs with h1 h2; cases h2
    · cases hs
  | schedOut j => exact (sch hs).elim
  | schedIn j c => exact (sch hs).elim
  | signal j => exact (sch hs).elim

/-- What a waiting thread asks for: objects of a class in use, at least one, at most a batch. -/
theorem asks_ok {w : W} (hcfg : cfg.OK limit) (h : Reach cfg limit w) {i k n : Nat} {st : St} (hi : w.th[i]? = some st)
    (ha : st.asks = some (k, n)) : cfg.Used k ∧ 0 < n ∧ n ≤ kMaxObjectsToMove := by
  have ok := (h.K hcfg).ok i st hi
  cases st with
  | direct k' => cases ha; exact ⟨ok, by omega, by decide⟩
  | fetch r =>
    simp only [St.asks, Option.some.injEq, Prod.mk.injEq] at ha
    obtain ⟨rfl, rfl⟩ := ha
    obtain ⟨h1, h2, h3⟩ := ok
    have : 0 < kMaxObjectsToMove := by decide
    exact ⟨h1.used, by omega, by omega⟩
  | _ => cases ha

/-- The answer is accepted; exactly these objects enter. -/
theorem fetched_step {w : W} {i k n : Nat} {st : St} {l : List Nat}
    (hi : w.th[i]? = some st) (ha : st.asks = some (k, n)) (hl : l.length ≤ n) (hg : ∀ o ∈ l, GoodObj o) :
    Pre cfg w (.fetched i l) ∧ ∃ w' st', step cfg w (.fetched i l) = some (w', .tau) ∧ w'.user = w.user ∧
      w'.th = w.th.set i st' ∧ enters w (.fetched i l) = pairs k l := by
  cases st with
  | direct k' =>
    cases ha
    refine ⟨⟨hg, Or.inl ⟨k, hi, hl⟩⟩, (w.enter k l).go i (.done ⟨k, 1, l.length, l.getLast?, l, [], []⟩), _, by simp only [step, hi], rfl, rfl, by simp only [enters, hi]⟩
  | fetch r =>
    simp only [St.asks, Option.some.injEq, Prod.mk.injEq] at ha
    obtain ⟨rfl, rfl⟩ := ha
    refine ⟨⟨hg, Or.inr ⟨r, hi, hl⟩⟩, (w.enter r.k l).go i (r.got l), _, by simp only [step, hi], rfl, rfl, by simp only [enters, hi]⟩
  | _ => cases ha

end Verif.CpuCache
