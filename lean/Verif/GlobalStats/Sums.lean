/-! Sums over classes, tags and lists. -/
namespace Verif.GlobalStats

theorem sum_add {α : Type} (f g : α → Nat) : ∀ l : List α, (l.map fun x => f x + g x).sum = (l.map f).sum + (l.map g).sum
  | [] => rfl
  | x :: l => by simp only [List.map_cons, List.sum_cons, sum_add f g l]; omega

theorem sum_mul {α : Type} (f : α → Nat) (c : Nat) : ∀ l : List α, (l.map fun x => f x * c).sum = (l.map f).sum * c
  | [] => by simp
  | x :: l => by simp only [List.map_cons, List.sum_cons, sum_mul f c l, Nat.add_mul]

theorem sum_congr {α : Type} {f g : α → Nat} : ∀ {l : List α}, (∀ x ∈ l, f x = g x) → (l.map f).sum = (l.map g).sum
  | [], _ => rfl
  | x :: l, h => by
    simp only [List.map_cons, List.sum_cons, h x (.head _), sum_congr fun y hy => h y (.tail _ hy)]

theorem sum_zero {α : Type} {f : α → Nat} {l : List α} (h : ∀ x ∈ l, f x = 0) : (l.map f).sum = 0 := by
  rw [sum_congr (g := fun _ => 0) h]
  clear h
  induction l with
  | nil => rfl
  | cons a l ih => simpa using ih

theorem sum_one (w : Nat) (k : Nat) : ∀ n, ((List.range n).map fun t => if k = t then w else 0).sum = if k < n then w else 0
  | 0 => by simp
  | n + 1 => by
    rw [List.range_succ, List.map_append, List.sum_append_nat, sum_one w k n]
    by_cases h1 : k < n
    · simp [h1, show k ≠ n by omega, show k < n + 1 by omega]
    · by_cases h2 : k = n
      · simp [h2]
      · simp [h1, h2, show ¬ k < n + 1 by omega]

/-- A sum over a list is the sum over its groups. -/
theorem sum_groups {α : Type} (f w : α → Nat) (n : Nat) : ∀ {l : List α}, (∀ x ∈ l, f x < n) →
    (l.map w).sum = ((List.range n).map fun t => ((l.filter fun x => decide (f x = t)).map w).sum).sum
  | [], _ => by simp [sum_zero]
  | x :: l, h => by
    have ih := sum_groups f w n (l := l) fun y hy => h y (.tail _ hy)
    have hx := sum_one (w x) (f x) n
    rw [if_pos (h x (.head _))] at hx
    rw [List.map_cons, List.sum_cons, ih, ← hx, ← sum_add]
    apply sum_congr
    intro t _
    rw [List.filter_cons]
    by_cases ht : f x = t
    · simp [ht]
    · simp [ht]

/-- A sum over a list, split by a test. -/
theorem sum_split {α : Type} (p : α → Bool) (w : α → Nat) : ∀ l : List α,
    (l.map w).sum = ((l.filter p).map w).sum + ((l.filter fun x => !p x).map w).sum
  | [] => rfl
  | x :: l => by
    have := sum_split p w l
    rw [List.filter_cons, List.filter_cons]
    cases hx : p x <;> simp [this] <;> omega

theorem sum_const {α : Type} {f : α → Nat} {c : Nat} : ∀ {l : List α}, (∀ x ∈ l, f x = c) → (l.map f).sum = l.length * c
  | [], _ => by simp
  | x :: l, h => by
    have := sum_const (l := l) fun y hy => h y (.tail _ hy)
    simp only [List.map_cons, List.sum_cons, List.length_cons, Nat.succ_mul, this, h x (.head _)]
    omega

end Verif.GlobalStats
