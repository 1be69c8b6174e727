import Verif.ZeroBytes.Spec
import Verif.Bitmap.Props
import Verif.Residency.Props
namespace Verif.ZeroBytes
open Verif.Bitmap Verif.Residency

variable {P addr size cap : Nat} {bits : List Word}

def addrs (c : Chunk) : List Nat := List.range' c.start c.len

/-- Resident addresses of `[x, y)`. -/
def res (P addr : Nat) (bits : List Word) (x y : Nat) : List Nat :=
  (List.range' x (y - x)).filter (fun a => decide (a / P - addr / P < 512) && bitAt bits (a / P - addr / P))

theorem res_append {x y z : Nat} (h1 : x ≤ y) (h2 : y ≤ z) : res P addr bits x z = res P addr bits x y ++ res P addr bits y z := by
  unfold res
  rw [← List.filter_append]
  congr 1
  have : z - x = (y - x) + (z - y) := by omega
  rw [this, ← List.range'_append_1]
  congr 2
  omega

theorem page_ge (hP : 0 < P) {a i : Nat} (h : basePage P addr + i * P ≤ a) : i ≤ a / P - addr / P := by
  unfold basePage at h
  have h : (addr / P + i) * P ≤ a := by rw [Nat.add_mul]; exact h
  have := (Nat.le_div_iff_mul_le hP).2 h
  omega

theorem page_lt (hP : 0 < P) {a j : Nat} (h : a < basePage P addr + j * P) : a / P < addr / P + j := by
  unfold basePage at h
  have h : a < (addr / P + j) * P := by rw [Nat.add_mul]; exact h
  exact (Nat.div_lt_iff_lt_mul hP).2 h

theorem res_none {x y : Nat} (h : ∀ a, x ≤ a → a < y → a / P - addr / P < 512 → bitAt bits (a / P - addr / P) = false) :
    res P addr bits x y = [] := by
  unfold res
  rw [List.filter_eq_nil_iff]
  intro a ha
  rw [List.mem_range'_1] at ha
  by_cases hc : a / P - addr / P < 512
  · simp [h a ha.1 (by omega) hc]
  · simp [hc]

theorem res_all {x y : Nat} (h : ∀ a, x ≤ a → a < y → a / P - addr / P < 512 ∧ bitAt bits (a / P - addr / P) = true) :
    res P addr bits x y = List.range' x (y - x) := by
  unfold res
  rw [List.filter_eq_self]
  intro a ha
  rw [List.mem_range'_1] at ha
  have := h a ha.1 (by omega)
  simp [this]

/-- Where the pages before `p` end. -/
def pos (P addr size p : Nat) : Nat := min (addr + size) (max addr (basePage P addr + p * P))

theorem take_step {X Y : List Nat} {cap : Nat} : (X ++ Y).take cap = X.take cap ++ Y.take (cap - (X.take cap).length) := by
  rw [List.take_append]
  congr 1
  by_cases h : X.length ≤ cap
  · rw [List.take_of_length_le h]
  · rw [List.length_take]
    have h1 : cap - X.length = 0 := by omega
    have h2 : cap - min cap X.length = 0 := by omega
    rw [h1, h2]

theorem take_range (n : Nat) : ∀ (s k : Nat), (List.range' s n).take k = List.range' s (min n k) := by
  induction n with
  | zero => intro s k; simp
  | succ n ih =>
    intro s k
    cases k with
    | zero => simp
    | succ k =>
      have : min (n + 1) (k + 1) = min n k + 1 := by omega
      rw [this, List.range'_succ, List.range'_succ, List.take_succ_cons, ih]

theorem base_le : basePage P addr ≤ addr := Nat.div_mul_le_self _ _
theorem base_gt (hP : 0 < P) : addr < basePage P addr + P := by
  unfold basePage
  have := Nat.lt_div_mul_add hP (a := addr)
  omega

theorem copyLoop_spec (hP : 0 < P) (hw : WF 512 bits) {scan pages : Nat} (hs : scan = min pages 512)
    (hp1 : addr + size ≤ basePage P addr + pages * P) (hp2 : ∀ i, i < pages → basePage P addr + i * P ≤ addr + size) :
    ∀ (m page total : Nat) (acc : List Chunk), scan - page < m → (page < scan ∨ page = 0) →
      acc.flatMap addrs = (res P addr bits addr (pos P addr size page)).take cap → total = (acc.flatMap addrs).length →
      (∀ c ∈ acc, addr ≤ c.start ∧ c.start + c.len ≤ addr + size) →
      ∃ acc' total', copyLoop P addr size bits scan cap page total acc = .ok (acc', total') ∧
        acc'.flatMap addrs = (res P addr bits addr (addr + size)).take cap ∧ total' = (acc'.flatMap addrs).length ∧
        (∀ c ∈ acc', addr ≤ c.start ∧ c.start + c.len ≤ addr + size) := by
  intro m
  induction m with
  | zero => intro page total acc h; omega
  | succ m ih =>
    intro page total acc hm hpg hacc htot hin
    have h512 : page < 512 := by omega
    obtain ⟨i, ei, hi1, hi2, hi3, hi4⟩ := find_first true 512 bits hw page h512
    have hbase := base_le (P := P) (addr := addr)
    have hbase2 := base_gt (addr := addr) hP
    have hmono : ∀ {p q : Nat}, p ≤ q → pos P addr size p ≤ pos P addr size q := by
      intro p q h
      have : p * P ≤ q * P := Nat.mul_le_mul_right P h
      unfold pos
      omega
    have hlo : ∀ p, addr ≤ pos P addr size p ∧ pos P addr size p ≤ addr + size := by intro p; unfold pos; omega
    have hpe : ∀ p a, pos P addr size p ≤ a → a < addr + size → p ≤ a / P - addr / P := by
      intro p a h1 h2
      refine page_ge hP ?_
      unfold pos at h1
      omega
    have hpl : ∀ p a, addr ≤ a → a < pos P addr size p → a / P - addr / P < p := by
      intro p a h0 h1
      have h2 : a < basePage P addr + p * P := by unfold pos at h1; omega
      have h3 := page_lt hP h2
      have h4 : addr / P ≤ a / P := Nat.div_le_div_right h0
      omega
    rw [copyLoop]
    have ei' : findSet kMaxResidencyBits bits page = some i := ei
    rw [ei']
    dsimp only
    by_cases hge : i ≥ scan
    · rw [if_pos hge]
      refine ⟨acc, total, rfl, ?_, htot, hin⟩
      rw [res_append (hlo page).1 (hlo page).2, hacc, res_none (x := pos P addr size page), List.append_nil]
      intro a h1 h2 h3
      have h4 := hpe page a h1 h2
      have h5 : a / P < addr / P + pages := page_lt hP (Nat.lt_of_lt_of_le h2 hp1)
      have h6 : addr / P ≤ a / P := Nat.div_le_div_right (Nat.le_trans (hlo page).1 h1)
      have := hi3 _ h4 (by omega)
      simpa using this
    · rw [if_neg hge]
      obtain ⟨j0, ej, hj1, hj2, hj3, hj4⟩ := find_first false 512 bits hw i (by omega)
      have ej' : findClear kMaxResidencyBits bits i = some j0 := ej
      rw [ej']
      dsimp only
      have hji : i < j0 := by
        rcases Nat.lt_or_ge i j0 with h | h
        · exact h
        · have : j0 = i := by omega
          subst this
          have h1 := hj4 (by omega)
          have h2 := hi4 (by omega)
          rw [h1] at h2
          exact nomatch h2
      generalize hj : min j0 scan = j
      have hij : i < j := by omega
      have hjP : P ≤ j * P := by
        have : 1 * P ≤ j * P := Nat.mul_le_mul_right P (by omega)
        omega
      have hijP : i * P ≤ j * P := Nat.mul_le_mul_right P (by omega)
      have hcs : max addr (basePage P addr + i * P) = pos P addr size i := by
        have := hp2 i (by omega)
        unfold pos
        omega
      have hce : min (addr + size) (basePage P addr + j * P) = pos P addr size j := by unfold pos; omega
      rw [hcs, hce]
      have hle := hmono (Nat.le_of_lt hij)
      rw [if_neg (by omega)]
      have hnone : res P addr bits (pos P addr size page) (pos P addr size i) = [] := by
        refine res_none fun a h1 h2 h3 => ?_
        have h4 := hpl i a (Nat.le_trans (hlo page).1 h1) h2
        have h5 := hpe page a h1 (Nat.lt_of_lt_of_le h2 (hlo i).2)
        have := hi3 _ h5 h4
        simpa using this
      have hall : res P addr bits (pos P addr size i) (pos P addr size j) =
          List.range' (pos P addr size i) (pos P addr size j - pos P addr size i) := by
        refine res_all fun a h1 h2 => ?_
        have h4 := hpl j a (Nat.le_trans (hlo i).1 h1) h2
        have h5 := hpe i a h1 (Nat.lt_of_lt_of_le h2 (hlo j).2)
        have := hj3 _ h5 (by omega)
        exact ⟨by omega, by simpa using this⟩
      have hres : res P addr bits addr (pos P addr size j) = res P addr bits addr (pos P addr size page) ++
          List.range' (pos P addr size i) (pos P addr size j - pos P addr size i) := by
        rw [res_append (hlo page).1 (hmono (show page ≤ j by omega)), res_append (hmono hi1) hle, hnone, hall, List.nil_append]
      have hacc' : (acc ++ [(⟨pos P addr size i, min (pos P addr size j - pos P addr size i) (cap - total)⟩ : Chunk)]).flatMap addrs =
          (res P addr bits addr (pos P addr size j)).take cap := by
        rw [List.flatMap_append, hres, take_step, ← hacc, ← htot]
        congr 1
        simp only [List.flatMap_cons, List.flatMap_nil, List.append_nil, addrs]
        rw [take_range]
      have hlen : total + min (pos P addr size j - pos P addr size i) (cap - total) =
          ((acc ++ [(⟨pos P addr size i, min (pos P addr size j - pos P addr size i) (cap - total)⟩ : Chunk)]).flatMap addrs).length := by
        rw [List.flatMap_append, List.length_append, ← htot]
        simp [addrs]
      have hin' : ∀ c ∈ acc ++ [(⟨pos P addr size i, min (pos P addr size j - pos P addr size i) (cap - total)⟩ : Chunk)],
          addr ≤ c.start ∧ c.start + c.len ≤ addr + size := by
        intro c hc
        rcases List.mem_append.1 hc with hc | hc
        · exact hin c hc
        · rw [List.mem_singleton] at hc
          subst hc
          refine ⟨(hlo i).1, ?_⟩
          have := (hlo j).2
          dsimp only
          omega
      split
      · next hc =>
        rw [dif_pos ⟨by omega, hc.1⟩]
        exact ih j _ _ (by omega) (Or.inl hc.1) hacc' hlen hin'
      · next hc =>
        refine ⟨_, _, rfl, ?_, hlen, hin'⟩
        rw [hacc']
        rcases Nat.lt_or_ge j scan with h | h
        · have hcap : cap ≤ ((res P addr bits addr (pos P addr size j)).take cap).length := by
            rw [← hacc', ← hlen]
            omega
          rw [List.length_take] at hcap
          rw [res_append (hlo j).1 (hlo j).2, List.take_append_of_le_length (by omega)]
        · rw [res_append (hlo j).1 (hlo j).2, res_none (x := pos P addr size j), List.append_nil]
          intro a h1 h2 h3
          have h4 := hpe j a h1 h2
          have h5 : a / P < addr / P + pages := page_lt hP (Nat.lt_of_lt_of_le h2 hp1)
          have h6 : addr / P ≤ a / P := Nat.div_le_div_right (Nat.le_trans (hlo j).1 h1)
          omega

end Verif.ZeroBytes
