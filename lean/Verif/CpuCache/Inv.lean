import Verif.CpuCache.Spec
import Verif.CpuCache.Under
/-! The invariant of the per-CPU caches, and how to preserve it. -/
namespace Verif.CpuCache
open Slab (Valid GoodObj Kind Sub Under Same SameBut)

variable {cfg : Cfg} {limit : Nat}

/-- The slab operation that belongs to a state of a thread. -/
def St.fits (cfg : Cfg) : St → Kind → Prop
  | .pop k _, kd => kd = .pop k
  | .push k o _, kd => kd = .push k o
  | .caching _, kd => kd = .cache
  | .growing q _ _ len _, kd => kd = .grow q.cls len
  | .storing r l _, kd => kd = .pushB r.k l
  | .gathering v n, kd => kd = .popB v.k n
  | .drain c _ _ out, kd => kd = .remote c .none ∧ out = [] ∨ kd = .remote c .drain
  | .classes c av _, kd => kd = .remote c .none ∨ (∃ k, kd = .remote c (.shrink k 1)) ∨
      ∃ k len, kd = .remote c (.grow k len) ∧ len * cfg.size k ≤ av
  | .steal _ _ _ (.work src) _, kd => kd = .remote src .none ∨ ∃ k, kd = .remote src (.shrink k 1)
  | .steal _ _ _ (.pend src _ true) _, kd => kd = .remote src .none
  | .all _, kd => kd = .all
  | _, kd => kd = .idle

/-- The CPU a thread in a slow path believes to run on. -/
def St.cpu : St → Option Nat
  | .pop _ a | .push _ _ a => a
  | .retry _ c | .upd _ c | .grow _ c _ _ | .growing _ c _ _ _ | .grown _ c _ _ => some c
  | _ => none

/-- The request of a slow path is for a class in use. -/
def Req.OK (cfg : Cfg) (q : Req) : Prop := cfg.Used q.cls

/-- Refill: everything fetched is with the thread (`l`), stored, given back or the result. -/
structure Refill.OK (cfg : Cfg) (r : Refill) (l : List Nat) : Prop where
  used : cfg.Used r.k
  perm : r.fetched.Perm (r.res.toList ++ r.stored ++ r.back ++ l)
  tot : r.total = r.fetched.length
  le : r.total ≤ r.target
  res : r.res = none → r.fetched = []

/-- Overflow: the freed object and everything taken from the slab is with the thread or sent. -/
structure Over.OK (cfg : Cfg) (v : Over) : Prop where
  used : cfg.Used v.k
  perm : (v.obj :: v.popped).Perm (v.sent ++ v.batch)
  tot : v.total = v.sent.length
  le : v.total + v.batch.length ≤ v.target

/-- Batches to be given to the backing cache. -/
def OutOK (out : List (Nat × List Nat)) : Prop :=
  ∀ x ∈ out, x.2 ≠ [] ∧ x.2.length ≤ kMaxObjectsToMove

/-- Local variables. -/
def St.OK (cfg : Cfg) : St → Prop
  | .idle => True
  | .pop k _ | .push k _ _ | .direct k | .sendOne k _ => cfg.Used k
  | .slow q | .caching q | .retry q _ | .upd q _ | .grown q _ _ _ | .target q _ => cfg.Used q.cls
  | .grow q _ _ inc => cfg.Used q.cls ∧ 0 < inc
  | .growing q _ _ len got => cfg.Used q.cls ∧ len * cfg.size q.cls ≤ got
  | .fetch r => r.OK cfg [] ∧ r.total < r.target ∧ r.back = []
  | .store r l _ | .storing r l _ => r.OK cfg l ∧ l ≠ [] ∧ l.length ≤ kMaxObjectsToMove ∧ r.back = []
  | .back r l => r.OK cfg l ∧ l ≠ [] ∧ l.length ≤ kMaxObjectsToMove ∧ r.back = []
  | .done r => r.OK cfg []
  | .gather v => v.OK cfg ∧ v.total < v.target ∧ v.batch.length ≤ kMaxObjectsToMove
  | .gathering v n => v.OK cfg ∧ v.total + v.batch.length + n ≤ v.target ∧ v.batch.length + n ≤ kMaxObjectsToMove ∧ 0 < n
  | .flush v => v.OK cfg ∧ v.batch ≠ [] ∧ v.batch.length ≤ kMaxObjectsToMove
  | .fdone v => v.OK cfg ∧ v.batch = []
  | .drain0 c | .classes0 c _ | .classes1 c _ => c < cfg.slab.n
  | .drain c _ _ out | .classes c _ out => c < cfg.slab.n ∧ OutOK out
  | .steal dst _ _ ph out => dst < cfg.slab.n ∧ OutOK out ∧
    match ph with
    | .work src => src < cfg.slab.n
    | .pend src _ _ | .lock src => src < cfg.slab.n ∧ out = []
    | _ => out = []
  | .all out => OutOK out

/-- The invariant. -/
structure K (cfg : Cfg) (limit : Nat) (w : W) : Prop where
  slab : Slab.Reach cfg.slab w.s
  fit : ∀ (i : Nat) (st : St), w.th[i]? = some st → ∃ t : Slab.Thread, w.s.thr[i]? = some t ∧ st.fits cfg (w.s.kind t.pc) ∧ ∀ c, st.cpu = some c → t.ret = c
  held : ∀ a, w.s.held.count a = w.user.count a + (w.th.flatMap St.hand).count a
  used : ∀ x ∈ w.s.everything cfg.slab, cfg.Used x.1
  ok : ∀ (i : Nat) (st : St), w.th[i]? = some st → st.OK cfg
  one : ∀ (i j : Nat) (st st' : St), w.th[i]? = some st → w.th[j]? = some st' → st.isSteal = true → st'.isSteal = true → i = j
  bud : ∀ c, c < cfg.slab.n → w.avail c + bytes cfg w.s c + w.purse c = w.cap c + w.owed c
  sum : total cfg.slab.n w.cap + w.moving = cfg.slab.n * limit

/-! ### Sums -/

theorem sum_set {α} (f : α → Nat) {l : List α} {i : Nat} {x : α} (y : α) (h : l[i]? = some x) :
    ((l.set i y).map f).sum + f x = (l.map f).sum + f y := by
  induction l generalizing i with
  | nil => simp at h
  | cons a l ih =>
    cases i with
    | zero => simp at h; subst h; simp; omega
    | succ i =>
      simp at h; have := ih h
      simp only [List.set_cons_succ, List.map_cons, List.sum_cons]; omega

theorem count_set {α β} [BEq β] [LawfulBEq β] (f : α → List β) {l : List α} {i : Nat} {x : α} (y : α) (h : l[i]? = some x) (a : β) :
    ((l.set i y).flatMap f).count a + (f x).count a = (l.flatMap f).count a + (f y).count a := by
  induction l generalizing i with
  | nil => simp at h
  | cons b l ih =>
    cases i with
    | zero => simp at h; subst h; simp [List.flatMap_cons, List.count_append]; omega
    | succ i => simp at h; have := ih h; simp [List.flatMap_cons, List.count_append]; omega

theorem le_sum {α} (f : α → Nat) {l : List α} {i : Nat} {x : α} (h : l[i]? = some x) : f x ≤ (l.map f).sum := by
  induction l generalizing i with
  | nil => simp at h
  | cons a l ih =>
    cases i with
    | zero => simp at h; subst h; simp
    | succ i => simp at h; have := ih h; simp; omega

theorem sum_le {α} {f g : α → Nat} {l : List α} (h : ∀ x ∈ l, f x ≤ g x) : (l.map f).sum ≤ (l.map g).sum := by
  induction l with
  | nil => simp
  | cons a l ih =>
    have h1 := h a (List.mem_cons_self ..)
    have h2 := ih fun x hx => h x (List.mem_cons_of_mem _ hx)
    simp; omega

theorem sum_congr {α} {f g : α → Nat} {l : List α} (h : ∀ x ∈ l, f x = g x) : (l.map f).sum = (l.map g).sum := by
  rw [List.map_congr_left h]

/-- Changing one summand. -/
theorem sum_one {f g : Nat → Nat} {n c : Nat} (hc : c < n) (h : ∀ x, x < n → x ≠ c → g x = f x) :
    ((List.range n).map g).sum + f c = ((List.range n).map f).sum + g c := by
  induction n with
  | zero => omega
  | succ n ih =>
    simp only [List.range_succ, List.map_append, List.sum_append, List.map_cons, List.map_nil, List.sum_cons, List.sum_nil]
    by_cases e : c = n
    · subst e
      have : (List.range c).map g = (List.range c).map f := by
        apply List.map_congr_left
        intro x hx
        rw [List.mem_range] at hx
        exact h x (by omega) (by omega)
      rw [this]; omega
    · have := ih (by omega) (fun x hx => h x (by omega))
      have := h n (by omega) (fun a => e a.symm)
      omega

theorem total_upd {n c : Nat} (f : Nat → Nat) (v : Nat) (hc : c < n) : total n (upd f c v) + f c = total n f + v := by
  have := sum_one (f := f) (g := upd f c v) hc (fun x _ hx => by simp [upd, hx])
  simpa [total, upd] using this

theorem le_total {n c : Nat} (f : Nat → Nat) (hc : c < n) : f c ≤ total n f :=
  le_sum f (l := List.range n) (i := c) (by simp [hc])

theorem bytes_same {s s' : Slab.W} (h : Same cfg.slab s s') {c : Nat} (hc : c < cfg.slab.n) : bytes cfg s' c = bytes cfg s c := by
  apply sum_congr
  intro k hk
  rw [List.mem_range] at hk
  rw [(h c (k + 1) hc ⟨by omega, by omega⟩).2]

theorem bytes_but {s s' : Slab.W} {c k : Nat} (h : SameBut cfg.slab s s' c k) (hk : Valid cfg.slab.nc k) (hc : c < cfg.slab.n) :
    (∀ c', c' < cfg.slab.n → c' ≠ c → bytes cfg s' c' = bytes cfg s c') ∧
    bytes cfg s' c + cfg.size k * s.space c k = bytes cfg s c + cfg.size k * s'.space c k := by
  constructor
  · intro c' h1 h2
    apply sum_congr
    intro x hx
    rw [List.mem_range] at hx
    rw [(h c' (x + 1) h1 ⟨by omega, by omega⟩ (fun a => h2 a.1)).2]
  · obtain ⟨k1, k2⟩ := hk
    have := sum_one (n := cfg.slab.nc - 1) (c := k - 1) (f := fun k => cfg.size (k + 1) * s.space c (k + 1))
      (g := fun k => cfg.size (k + 1) * s'.space c (k + 1)) (by omega) (by
        intro x hx hne
        show _ * _ = _ * _
        rw [(h c (x + 1) hc ⟨by omega, by omega⟩ (fun a => by omega)).2])
    simp only [show k - 1 + 1 = k by omega] at this
    exact this

/-! ### One thread goes on -/

theorem K.next {w w' : W} (k : K cfg limit w) {i : Nat} {st st' : St} {kd : Kind} {ret : Nat} (hi : w.th[i]? = some st)
    (hth : w'.th = w.th.set i st') (u : Under cfg.slab w.s w'.s i kd ret) (hf : st'.fits cfg kd)
    (hc : ∀ c, st'.cpu = some c → ret = c)
    (hh : ∀ a, w'.s.held.count a + w.user.count a + st.hand.count a = w.s.held.count a + w'.user.count a + st'.hand.count a)
    (hu : ∀ x ∈ w'.s.everything cfg.slab, cfg.Used x.1) (hok : st'.OK cfg)
    (hone : st'.isSteal = true → st.isSteal = true ∨ ∀ x ∈ w.th, x.isSteal = false)
    (hb : ∀ c, c < cfg.slab.n → w'.avail c + bytes cfg w'.s c + st'.purse c + w.cap c + st.owed c =
      w.avail c + bytes cfg w.s c + st.purse c + w'.cap c + st'.owed c)
    (hs : total cfg.slab.n w'.cap + st'.moving = total cfg.slab.n w.cap + st.moving) : K cfg limit w' := by
  have get : ∀ (j : Nat) (x : St), w'.th[j]? = some x → (j = i ∧ x = st') ∨ (j ≠ i ∧ w.th[j]? = some x) := by
    intro j x hj
    rw [hth, List.getElem?_set] at hj
    split at hj
    · rename_i e
      split at hj
      · injection hj with hj; exact Or.inl ⟨e.symm, hj.symm⟩
      · cases hj
    · rename_i e; exact Or.inr ⟨fun a => e a.symm, hj⟩
  refine ⟨u.reach, ?_, ?_, hu, ?_, ?_, ?_, ?_⟩
  · intro j x hj
    rcases get j x hj with ⟨rfl, rfl⟩ | ⟨hne, hx⟩
    · obtain ⟨t, h1, h2, h3⟩ := u.self
      exact ⟨t, h1, by rw [h2]; exact hf, fun c e => by rw [h3]; exact hc c e⟩
    · obtain ⟨t, h1, h2, h3⟩ := k.fit j x hx
      obtain ⟨t', e1, e2, e3⟩ := u.other j t hne h1
      exact ⟨t', e1, by rw [e2]; exact h2, fun c e => by rw [e3]; exact h3 c e⟩
  · intro a
    have h1 := k.held a
    have h2 := count_set St.hand st' hi a
    have h3 := hh a
    rw [hth]; omega
  · intro j x hj
    rcases get j x hj with ⟨rfl, rfl⟩ | ⟨hne, hx⟩
    · exact hok
    · exact k.ok j x hx
  · intro a b x y ha hb' h1 h2
    rcases get a x ha with ⟨rfl, rfl⟩ | ⟨hne, hx⟩ <;> rcases get b y hb' with ⟨rfl, rfl⟩ | ⟨hne', hy⟩
    · rfl
    · rcases hone h1 with e | e
      · exact k.one _ _ _ _ hi hy e h2
      · have := e y (List.mem_of_getElem? hy); rw [this] at h2; cases h2
    · rcases hone h2 with e | e
      · exact k.one _ _ _ _ hx hi h1 e
      · have := e x (List.mem_of_getElem? hx); rw [this] at h1; cases h1
    · exact k.one _ _ _ _ hx hy h1 h2
  · intro c hc'
    have h1 := k.bud c hc'
    have h2 := sum_set (fun st => st.purse c) st' hi
    have h3 := sum_set (fun st => st.owed c) st' hi
    have h4 := hb c hc'
    simp only [W.purse, W.owed] at h1 ⊢
    rw [hth]; omega
  · have h1 := k.sum
    have h2 := sum_set (fun st => st.moving) st' hi
    simp only [W.moving] at h1 ⊢
    rw [hth]; omega

theorem owed_le (st : St) (c : Nat) : st.owed c ≤ st.moving := by
  unfold St.owed St.moving
  split
  · simp only; split <;> omega
  · omega

/-- What a CPU has is within the total. -/
theorem K.bound {w : W} (k : K cfg limit w) {c : Nat} (hc : c < cfg.slab.n) :
    w.avail c + bytes cfg w.s c + w.purse c ≤ cfg.slab.n * limit := by
  have h1 := k.bud c hc
  have h2 := k.sum
  have h3 := le_total w.cap hc
  have h4 : w.owed c ≤ w.moving := sum_le (fun st _ => owed_le st c)
  omega

theorem K.purse_le {w : W} (k : K cfg limit w) {i : Nat} {st : St} (hi : w.th[i]? = some st) (c : Nat) : st.purse c ≤ w.purse c :=
  le_sum (fun st => st.purse c) hi

end Verif.CpuCache
