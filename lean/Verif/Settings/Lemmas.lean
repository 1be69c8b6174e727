import Verif.Settings.Model
/-!
# Settings: the invariant
-/
namespace Verif.Settings

/-! ## Conversions -/

theorem cutDur_toNanos (d : Dur) : Dur.fin (4 * toNanos d) = cutDur d := by
  cases d with
  | inf => simp [toNanos, cutDur]
  | negInf => simp [toNanos, cutDur]
  | fin q =>
    have h1 : q.tmod 4 = q - 4 * q.tdiv 4 := Int.tmod_def q 4
    have hd := Int.mul_tdiv_add_tmod q 4
    have hm : maxI64 = 9223372036854775807 := rfl
    simp only [toNanos, cutDur]
    by_cases hq : 0 ≤ q
    · have h2 : q.tdiv 4 = q / 4 := Int.tdiv_eq_ediv_of_nonneg hq
      rw [h1, h2]
      repeat' split
      all_goals first | rfl | (simp only [Dur.fin.injEq]; omega)
    · have h2 : q.tdiv 4 = -((-q) / 4) := by
        have : q = -(-q) := by omega
        rw [this, Int.neg_tdiv, Int.tdiv_eq_ediv_of_nonneg (by omega)]
        simp
      rw [h1, h2]
      repeat' split
      all_goals first | rfl | (simp only [Dur.fin.injEq]; omega)

/-- What a setter stores reads back as specified. -/
theorem roundtrip (env : Env) (k : Key) (v : Val) (h : WellTyped k v) :
    (encode env k v).map (decode k) = readBack env k v := by
  cases v with
  | dur d =>
    cases k <;> simp only [WellTyped] at h <;>
      simp [encode, readBack, decode, cutDur_toNanos]
  | int i =>
    cases k <;> simp only [WellTyped, maxI32, maxI64, maxU64] at h <;>
      simp only [encode, readBack, decode, Option.map, Val.int.injEq]
    case cpuCache => congr 2; split <;> omega
    case perCpu => split <;> simp_all
    case dynamicSlab => split <;> simp_all
    case softLimit => congr 1; by_cases h0 : i = 0 <;> simp [h0] <;> omega
    case hardLimit => congr 1; by_cases h0 : i = 0 <;> simp [h0] <;> omega

/-! ## Histories -/

theorem settled_cons {env : Env} {e : Entry} {l : List Entry} {k : Key} (he : e ≠ .inited) :
    Settled env (e :: l) k ↔ Settled env l k := by
  constructor
  · rintro (h | ⟨a, b, hl, hb⟩)
    · exact Or.inl h
    · cases a with
      | nil => simp at hl; exact absurd hl.1 he
      | cons x a =>
        simp at hl
        exact Or.inr ⟨a, b, hl.2, hb⟩
  · rintro (h | ⟨a, b, hl, hb⟩)
    · exact Or.inl h
    · exact Or.inr ⟨e :: a, b, by simp [hl], hb⟩

theorem expect_start {env : Env} {l : List Entry} {k : Key} (h : ∀ v, .wrote k v ∉ l)
    (hs : k = .softLimit → ∀ v, .wrote .hardLimit v ∉ l) : expect env l k = start env k := by
  induction l with
  | nil => rfl
  | cons e l ih =>
    have ih := ih (fun v hv => h v (List.mem_cons_of_mem _ hv))
      (fun hk v hv => hs hk v (List.mem_cons_of_mem _ hv))
    cases e with
    | got k' x => exact ih
    | inited => exact ih
    | wrote k' v =>
      have h1 : k ≠ k' := fun hk => h v (by rw [hk]; exact List.mem_cons_self)
      have h2 : ¬(k = .softLimit ∧ k' = .hardLimit) := fun hk => hs hk.1 v (by rw [hk.2]; exact List.mem_cons_self)
      rw [expect]
      split
      · exact ih
      · rw [if_neg h1, if_neg h2, ih]

/-! ## The invariant -/

def NoWrite (l : List Entry) (k : Key) : Prop := ∀ v, Entry.wrote k v ∉ l

structure Core (env : Env) (s : St) : Prop where
  once_nd : ∀ k, isOnce k = true → s.once k ≠ .done → NoWrite s.log k
  fresh : ∀ k, isOnce k = true → s.once k = .fresh → s.vals k = constInit env k
  done : ∀ k, isOnce k = true → s.once k = .done → decode k (s.vals k) = expect env s.log k
  plain : ∀ k, isOnce k = false → setUpWrites env k = false → decode k (s.vals k) = expect env s.log k
  pre : s.inited = false → .inited ∉ s.log ∧ NoWrite s.log .hardLimit ∧ NoWrite s.log .softLimit ∧
    ∀ k, setUpWrites env k = true → NoWrite s.log k → s.vals k = constInit env k
  post : s.inited = true → Settled env s.log .hardLimit ∧ Settled env s.log .softLimit ∧
    ∀ k, setUpWrites env k = true → Settled env s.log k → decode k (s.vals k) = expect env s.log k
  got : ∀ l2 l1 k x, s.log = l2 ++ .got k x :: l1 → Settled env l1 k → x = expect env l1 k

/-- The thread is inside the once-only initialisation of `k`. -/
def inOnce (k : Key) : PC → Prop
  | .storing j _ | .marking j _ => j = k
  | _ => False

def PcOk (env : Env) (s : St) : PC → Prop
  | .idle | .apply _ => True
  | .enter c => c.Typed
  | .storing k c => c.Typed ∧ isOnce k = true ∧ c.key = some k ∧ s.once k = .running ∧ s.vals k = constInit env k
  | .marking k c => c.Typed ∧ isOnce k = true ∧ c.key = some k ∧ s.once k = .running ∧
      decode k (s.vals k) = start env k
  | .act c => c.Typed ∧ ∀ k, c.key = some k → isOnce k = true → s.once k = .done
  | .again v => WellTyped .hardLimit v ∧ s.inited = true

structure Inv (env : Env) (s : St) : Prop where
  core : Core env s
  pcs : ∀ t, PcOk env s (s.pc t)
  uniq : ∀ t u k, inOnce k (s.pc t) → inOnce k (s.pc u) → t = u

theorem setUp_not_once {env : Env} {k : Key} (h : isOnce k = true) : setUpWrites env k = false := by
  cases k <;> simp_all [isOnce, setUpWrites]

theorem inited_of_settled {env : Env} {l : List Entry} {k : Key} (hk : setUpWrites env k = true) (h : Settled env l k) : Entry.inited ∈ l := by
  rcases h with h | ⟨a, b, rfl, _⟩
  · rw [hk] at h; cases h
  · simp

/-- What every getter may rely on: a settled setting holds the value expected of it. -/
theorem Core.value {env : Env} {s : St} (h : Core env s) {k : Key} (ho : isOnce k = true → s.once k = .done)
    (hs : Settled env s.log k) : decode k (s.vals k) = expect env s.log k := by
  cases hk : isOnce k with
  | true => exact h.done k hk (ho hk)
  | false =>
    cases hu : setUpWrites env k with
    | false => exact h.plain k hk hu
    | true =>
      cases hi : s.inited with
      | false => exact absurd (inited_of_settled hu hs) (h.pre hi).1
      | true => exact (h.post hi).2.2 k hu hs

theorem noWrite_cons {e : Entry} {l : List Entry} {k : Key} (h : NoWrite (e :: l) k) : NoWrite l k :=
  fun v hv => h v (List.mem_cons_of_mem _ hv)

theorem noWrite_cons_of {e : Entry} {l : List Entry} {k : Key} (h : NoWrite l k) (he : ∀ v, e ≠ .wrote k v) :
    NoWrite (e :: l) k := by
  intro v hv
  rcases List.mem_cons.mp hv with hv | hv
  · exact he v hv.symm
  · exact h v hv

theorem got_cons {env : Env} {e : Entry} {l : List Entry} (he : ∀ k x, e = .got k x → Settled env l k → x = expect env l k)
    (h : ∀ l2 l1 k x, l = l2 ++ .got k x :: l1 → Settled env l1 k → x = expect env l1 k) :
    ∀ l2 l1 k x, e :: l = l2 ++ .got k x :: l1 → Settled env l1 k → x = expect env l1 k := by
  intro l2 l1 k x hl
  cases l2 with
  | nil => simp at hl; obtain ⟨h1, h2⟩ := hl; subst h2; exact he k x h1
  | cons y l2 => simp at hl; exact h l2 l1 k x hl.2

/-! ### A getter -/

theorem Core.get {env : Env} {s : St} (h : Core env s) {k : Key} (ho : isOnce k = true → s.once k = .done)
    (pc : Nat → PC) : Core env { s with log := .got k (decode k (s.vals k)) :: s.log, pc := pc } where
  once_nd := fun j hj hd => noWrite_cons_of (h.once_nd j hj hd) (by simp)
  fresh := h.fresh
  done := h.done
  plain := h.plain
  pre := fun hi => by
    obtain ⟨h1, h2, h3, h4⟩ := h.pre hi
    exact ⟨by simp [h1], noWrite_cons_of h2 (by simp), noWrite_cons_of h3 (by simp), fun j hj hn => h4 j hj (noWrite_cons hn)⟩
  post := fun hi => by
    obtain ⟨h1, h2, h3⟩ := h.post hi
    exact ⟨(settled_cons (by simp)).2 h1, (settled_cons (by simp)).2 h2,
      fun j hj hn => h3 j hj ((settled_cons (by simp)).1 hn)⟩
  got := got_cons (by
    intro k' x he hs
    injection he with h1 h2
    subst h1; subst h2
    exact h.value ho hs) h.got

/-! ### A setter -/

theorem put_soft (vals : Key → Int) (n : Int) :
    put vals .softLimit n = upd vals .softLimit (if vals .hardLimit < n then vals .hardLimit else n) := by
  funext j
  by_cases h : vals .hardLimit < n <;> by_cases hj : j = .softLimit <;> simp [put, upd, h, hj]

theorem put_hard (vals : Key → Int) (n : Int) :
    put vals .hardLimit n =
      upd (upd vals .hardLimit n) .softLimit (if n < vals .softLimit then n else vals .softLimit) := by
  funext j
  by_cases h : n < vals .softLimit <;> by_cases hj : j = .softLimit <;> simp [put, upd, h, hj]

theorem put_other (vals : Key → Int) {k : Key} (n : Int) (h1 : k ≠ .softLimit) (h2 : k ≠ .hardLimit) :
    put vals k n = upd vals k n := by simp [put, h1, h2]

theorem put_val {env : Env} {s : St} (h : Core env s) {k : Key} {v : Val} (hw : WellTyped k v)
    (hl : k = .softLimit ∨ k = .hardLimit → s.inited = true) (j : Key)
    (hj : decode j (s.vals j) = expect env s.log j) :
    decode j ((write env s k v).vals j) = expect env (.wrote k v :: s.log) j := by
  have hr := roundtrip env k v hw
  rw [expect]
  simp only [write]
  cases he : encode env k v with
  | none =>
    rw [he] at hr
    simp only [Option.map] at hr
    rw [← hr]; exact hj
  | some n =>
    rw [he] at hr
    simp only [Option.map] at hr
    rw [← hr]
    simp only
    by_cases h1 : k = .softLimit
    · subst h1
      obtain ⟨p1, p2, p3⟩ := h.post (hl (Or.inl rfl))
      have eh := p3 .hardLimit rfl p1
      rw [put_soft]
      by_cases hjk : j = .softLimit
      · subst hjk
        rw [if_pos rfl, if_pos rfl, ← eh]
        simp only [upd, if_pos, decode, least, Val.int.injEq]
        split <;> omega
      · simp [upd, hjk, hj]
    · by_cases h2 : k = .hardLimit
      · subst h2
        obtain ⟨p1, p2, p3⟩ := h.post (hl (Or.inr rfl))
        have es := p3 .softLimit rfl p2
        rw [put_hard]
        by_cases hjk : j = .hardLimit
        · subst hjk
          simp [upd, decode]
        · by_cases hjs : j = .softLimit
          · subst hjs
            simp only [decode] at es
            simp only [upd, hjk, if_false, and_self, if_true, ← es, decode, least, Val.int.injEq]
            split <;> omega
          · simp [upd, hjk, hjs, hj]
      · rw [put_other _ _ h1 h2]
        by_cases hjk : j = k
        · subst hjk; simp [h1, upd]
        · simp [hjk, h2, hj, upd]

/-- A setter leaves the settings that are not its own, nor the soft limit, as they were. -/
theorem write_other {env : Env} {s : St} {k j : Key} {v : Val} (hjk : j ≠ k) (hs : j ≠ .softLimit) :
    (write env s k v).vals j = s.vals j := by
  simp only [write]
  cases encode env k v with
  | none => rfl
  | some n =>
    simp only
    by_cases h1 : k = .softLimit
    · subst h1; rw [put_soft]; simp [upd, hs]
    · by_cases h2 : k = .hardLimit
      · subst h2; rw [put_hard]; simp [upd, hs, hjk]
      · rw [put_other _ _ h1 h2]; simp [upd, hjk]

theorem Core.write {env : Env} {s : St} (h : Core env s) {k : Key} {v : Val} (hw : WellTyped k v)
    (ho : isOnce k = true → s.once k = .done) (hl : k = .softLimit ∨ k = .hardLimit → s.inited = true)
    (pc : Nat → PC) : Core env { write env s k v with pc := pc } where
  once_nd := fun j hj hd => noWrite_cons_of (h.once_nd j hj hd) (by
    intro v' he
    injection he with h1 h2
    subst h1
    exact hd (ho hj))
  fresh := fun j hj hf => by
    have hjk : j ≠ k := by
      intro e; subst e
      have := ho hj
      have hf' : s.once j = .fresh := hf
      rw [this] at hf'; cases hf'
    have hjs : j ≠ .softLimit := by intro e; subst e; cases hj
    show (Settings.write env s k v).vals j = _
    rw [write_other hjk hjs]
    exact h.fresh j hj hf
  done := fun j hj hd => put_val h hw hl j (h.done j hj hd)
  plain := fun j hj hu => put_val h hw hl j (h.plain j hj hu)
  pre := fun hi => by
    have hi : s.inited = false := hi
    obtain ⟨h1, h2, h3, h4⟩ := h.pre hi
    have hlim : ¬(k = .softLimit ∨ k = .hardLimit) := fun hh => by rw [hl hh] at hi; cases hi
    refine ⟨by show Entry.inited ∉ Entry.wrote k v :: s.log; simp [h1], noWrite_cons_of h2 ?_, noWrite_cons_of h3 ?_, ?_⟩
    · intro v' he; injection he with e1; exact hlim (Or.inr e1)
    · intro v' he; injection he with e1; exact hlim (Or.inl e1)
    · intro j hj hn
      have hjk : j ≠ k := by intro e; subst e; exact hn v List.mem_cons_self
      have hx : s.vals j = constInit env j := h4 j hj (noWrite_cons hn)
      show (Settings.write env s k v).vals j = _
      rw [← hx]
      simp only [Settings.write]
      cases encode env k v with
      | none => rfl
      | some n =>
        simp only
        rw [put_other _ _ (fun e => hlim (Or.inl e)) (fun e => hlim (Or.inr e))]
        simp [upd, hjk]
  post := fun hi => by
    obtain ⟨h1, h2, h3⟩ := h.post hi
    exact ⟨(settled_cons (by simp)).2 h1, (settled_cons (by simp)).2 h2,
      fun j hj hn => put_val h hw hl j (h3 j hj ((settled_cons (by simp)).1 hn))⟩
  got := got_cons (by intro k' x he; cases he) h.got

/-! ### Setting the allocator up -/

theorem setUp_vals {env : Env} {s : St} (hi : s.inited = false) {j : Key} (hj : setUpWrites env j = false) :
    (setUp env s).vals j = s.vals j := by
  simp only [setUp, hi]
  cases j <;> simp [setUpWrites] at hj <;>
    (cases h1 : env.cpusKnown <;> cases h2 : env.expCache1MB <;> cases h3 : env.expPgho <;> simp_all [upd])

/-- The build's per-CPU cache size fits an `int32_t`. -/
def Env.Sane (env : Env) : Prop := (env.cpuCacheSize : Int) ≤ maxI32

theorem setUp_start {env : Env} (hE : env.Sane) {s : St} (hi : s.inited = false) {j : Key} (hj : setUpWrites env j = true)
    (hv : s.vals j = constInit env j) : decode j ((setUp env s).vals j) = start env j := by
  simp only [Env.Sane, maxI32] at hE
  simp only [setUp, hi]
  cases j <;> simp [setUpWrites] at hj <;> simp only [constInit] at hv
  case cpuCache =>
    cases env.cpusKnown <;> cases he : env.expCache1MB <;> cases env.expPgho <;>
      simp [upd, hv, decode, start, he] <;> omega
  case minHot =>
    cases env.cpusKnown <;> cases env.expCache1MB <;> cases he : env.expPgho <;>
      simp [upd, hv, decode, start, he]
  case perCpu =>
    cases hc : env.cpusKnown <;> cases env.expCache1MB <;> cases env.expPgho <;> cases hp : env.perThread <;>
      simp [upd, hv, decode, start, hc, hp, bit, ofBool]
  case softLimit => simp [upd, decode, start]
  case hardLimit => simp [upd, decode, start]

theorem setUp_once (env : Env) (s : St) : (setUp env s).once = s.once := by
  simp only [setUp]; split <;> rfl

theorem Core.setUp {env : Env} (hE : env.Sane) {s : St} (h : Core env s) (pc : Nat → PC) :
    Core env { setUp env s with pc := pc } := by
  cases hi : s.inited with
  | true =>
    have : Settings.setUp env s = s := by simp [Settings.setUp, hi]
    rw [this]
    exact { once_nd := h.once_nd, fresh := h.fresh, done := h.done, plain := h.plain, pre := h.pre, post := h.post, got := h.got }
  | false =>
    have hlog : (Settings.setUp env s).log = .inited :: s.log := by simp [Settings.setUp, hi]
    have hin : (Settings.setUp env s).inited = true := by simp [Settings.setUp, hi]
    obtain ⟨h1, h2, h3, h4⟩ := h.pre hi
    have hno : ∀ j, setUpWrites env j = true → Settled env (.inited :: s.log) j → NoWrite s.log j := by
      rintro j hj (hs | ⟨a, b, hl, hb⟩)
      · rw [hj] at hs; cases hs
      · cases a with
        | nil => simp at hl; subst hl; exact hb
        | cons x a => simp at hl; exact absurd (by rw [hl.2]; simp) h1
    refine { once_nd := ?_, fresh := ?_, done := ?_, plain := ?_, pre := ?_, post := ?_, got := ?_ }
    · intro j hj hd
      simp only [setUp_once] at hd
      simp only [hlog]
      exact noWrite_cons_of (h.once_nd j hj hd) (by simp)
    · intro j hj hf
      simp only [setUp_once] at hf
      simp only [setUp_vals hi (setUp_not_once hj)]
      exact h.fresh j hj hf
    · intro j hj hd
      simp only [setUp_once] at hd
      simp only [setUp_vals hi (setUp_not_once hj), hlog]
      exact h.done j hj hd
    · intro j hj hu
      simp only [setUp_vals hi hu, hlog]
      exact h.plain j hj hu
    · intro hf
      simp only [hin] at hf; cases hf
    · intro _
      simp only [hlog]
      refine ⟨Or.inr ⟨[], s.log, rfl, h2⟩, Or.inr ⟨[], s.log, rfl, h3⟩, ?_⟩
      intro j hj hs
      have hn := hno j hj hs
      rw [setUp_start hE hi hj (h4 j hj hn)]
      show _ = expect env s.log j
      rw [expect_start hn (fun _ => h2)]
    · simp only [hlog]
      exact got_cons (by intro k' x he; cases he) h.got

/-! ### The once-only initialisation -/

theorem once_start {env : Env} {k : Key} (hk : isOnce k = true) {x : Int} (hx : x = constInit env k) :
    decode k (match onceStore env k with | none => x | some n => n) = start env k := by
  subst hx
  cases k <;> simp [isOnce] at hk
  case bgActions => simp [onceStore, decode, start, ofBool]
  case bgSleep => simp [onceStore, decode, start, second]
  case skipShort => cases h : env.smallButSlow <;> simp [onceStore, decode, start, second, h]
  case skipLong => cases h : env.smallButSlow <;> simp [onceStore, decode, start, second, h]
  case rate => simp [onceStore, decode, start, constInit]
  case subrelease => simp [onceStore, decode, start, ofBool, bit]
  case madviseCold => cases h : env.expMadvise <;> simp [onceStore, decode, start, ofBool, h, constInit]
  case adaptiveRelease => cases h : env.expAdaptive <;> simp [onceStore, decode, start, ofBool, h, constInit]

theorem updN_self {α : Type} (f : Nat → α) (t : Nat) (x : α) : updN f t x t = x := by simp [updN]
theorem updN_ne {α : Type} (f : Nat → α) {t u : Nat} (x : α) (h : u ≠ t) : updN f t x u = f u := by simp [updN, h]

theorem PcOk.frame {env : Env} {s s' : St} {p : PC} (h : PcOk env s p)
    (hrun : ∀ k, inOnce k p → isOnce k = true → s.once k = .running → s'.once k = .running ∧ s'.vals k = s.vals k)
    (hdone : ∀ k, s.once k = .done → s'.once k = .done) (hin : s.inited = true → s'.inited = true) : PcOk env s' p := by
  cases p with
  | idle => trivial
  | apply i => trivial
  | enter c => exact h
  | storing k c =>
    obtain ⟨q1, q2, q3, q4, q5⟩ := h
    obtain ⟨r1, r2⟩ := hrun k rfl q2 q4
    exact ⟨q1, q2, q3, r1, by rw [r2]; exact q5⟩
  | marking k c =>
    obtain ⟨q1, q2, q3, q4, q5⟩ := h
    obtain ⟨r1, r2⟩ := hrun k rfl q2 q4
    exact ⟨q1, q2, q3, r1, by rw [r2]; exact q5⟩
  | act c => exact ⟨h.1, fun k h1 h2 => hdone k (h.2 k h1 h2)⟩
  | again v => exact ⟨h.1, hin h.2⟩

/-- A step that leaves the once flags alone, and changes the settings under initialisation not at all. -/
theorem Inv.of_core {env : Env} {s s' : St} (h : Inv env s) (t : Nat) (p : PC) (hpc : s'.pc = updN s.pc t p)
    (hc : Core env s') (honce : s'.once = s.once)
    (hin : s.inited = true → s'.inited = true)
    (hv : ∀ k, isOnce k = true → s.once k ≠ .done → s'.vals k = s.vals k)
    (hp : PcOk env s' p) (hno : ∀ k, ¬ inOnce k p) : Inv env s' := by
  refine ⟨hc, ?_, ?_⟩
  · intro u
    rw [hpc]
    by_cases hu : u = t
    · rw [hu, updN_self]; exact hp
    · rw [updN_ne _ _ hu]
      refine (h.pcs u).frame ?_ ?_ hin
      · intro k _ ho hr
        exact ⟨by rw [honce]; exact hr, hv k ho (by rw [hr]; simp)⟩
      · intro k hd; rw [honce]; exact hd
  · intro u w k hu hw
    rw [hpc] at hu hw
    by_cases h1 : u = t
    · rw [h1, updN_self] at hu; exact absurd hu (hno k)
    · by_cases h2 : w = t
      · rw [h2, updN_self] at hw; exact absurd hw (hno k)
      · rw [updN_ne _ _ h1] at hu; rw [updN_ne _ _ h2] at hw
        exact h.uniq u w k hu hw

theorem Core.pc {env : Env} {s : St} (h : Core env s) (pc : Nat → PC) : Core env { s with pc := pc } :=
  { once_nd := h.once_nd, fresh := h.fresh, done := h.done, plain := h.plain, pre := h.pre, post := h.post, got := h.got }

theorem Inv.init {env : Env} (hE : env.Sane) : Inv env (init env) := by
  simp only [Env.Sane, maxI32] at hE
  refine ⟨{ once_nd := ?_, fresh := ?_, done := ?_, plain := ?_, pre := ?_, post := ?_, got := ?_ }, ?_, ?_⟩
  · intro k _ _; simp [NoWrite, Settings.init]
  · intro k _ _; rfl
  · intro k _ hd; cases hd
  · intro k h1 h2
    cases k <;> simp [isOnce] at h1 <;> simp [setUpWrites] at h2 <;>
      simp [Settings.init, constInit, decode, expect, start, ofBool, h2]
    · split <;> rfl
    · omega
    · cases env.perThread <;> rfl
  · intro _; exact ⟨by simp [Settings.init], by simp [NoWrite, Settings.init], by simp [NoWrite, Settings.init], fun k _ _ => rfl⟩
  · intro h; cases h
  · intro l2 l1 k x hl; simp [Settings.init] at hl
  · intro t; trivial
  · intro t u k h; cases h

theorem pcOk_act_other {env : Env} {s : St} {c : Call} (ht : c.Typed) (hc : ∀ k, c.key = some k → isOnce k = false) :
    PcOk env s (.act c) := ⟨ht, fun k hk ho => by rw [hc k hk] at ho; cases ho⟩

theorem Inv.doAct {env : Env} (hE : env.Sane) {s : St} (h : Inv env s) {t : Nat} {c : Call} (hp : s.pc t = .act c) :
    Inv env (doAct env s t c) := by
  have hq := h.pcs t
  rw [hp] at hq
  obtain ⟨htyp, hdone⟩ := hq
  have hset : ∀ {c : Call} (p : PC), s.pc t = .act c → PcOk env (Settings.setUp env s) p → (∀ k, ¬ inOnce k p) →
      Inv env { Settings.setUp env s with pc := updN s.pc t p } := by
    intro c p _ hpo hno
    refine h.of_core t p rfl (h.core.setUp hE _) (setUp_once env s) ?_ ?_ ?_ hno
    · intro hi; simp only [Settings.setUp, hi, if_true]
    · intro k hk _
      cases hi : s.inited with
      | true => simp [Settings.setUp, hi]
      | false => exact setUp_vals hi (setUp_not_once hk)
    · revert hpo; cases p <;> exact id
  have hself : ∀ p, s.pc t = p → { Settings.setUp env s with pc := updN s.pc t p } = Settings.setUp env s := by
    intro p hp'
    have : updN s.pc t p = (Settings.setUp env s).pc := by
      have h1 : (Settings.setUp env s).pc = s.pc := by simp only [Settings.setUp]; split <;> rfl
      rw [h1]
      funext u
      by_cases hu : u = t
      · rw [hu, updN_self, hp']
      · rw [updN_ne _ _ hu]
    rw [this]
  have hw : ∀ k v p, WellTyped k v → (isOnce k = true → s.once k = .done) →
      (k = .softLimit ∨ k = .hardLimit → s.inited = true) → PcOk env (write env s k v) p → (∀ k, ¬ inOnce k p) →
      Inv env { write env s k v with pc := updN s.pc t p } := by
    intro k v p hty ho hl hpo hno
    refine h.of_core t p rfl (h.core.write hty ho hl _) rfl (fun hi => hi) ?_ ?_ hno
    · intro j hj hd
      refine write_other ?_ ?_
      · intro e; subst e; exact hd (ho hj)
      · intro e; subst e; cases hj
    · revert hpo; cases p <;> exact id
  cases c with
  | get k =>
    exact h.of_core t .idle rfl (h.core.get (hdone k rfl) _) rfl (fun hi => hi) (fun _ _ _ => rfl) trivial (fun _ hh => hh)
  | alloc => exact hset .idle hp trivial (fun _ hh => hh)
  | limitHard v =>
    simp only [Settings.doAct]
    split
    · rename_i hi
      exact hw .hardLimit v (.again v) htyp (by simp [isOnce]) (fun _ => hi) ⟨htyp, hi⟩ (fun _ hh => hh)
    · rw [← hself _ hp]
      exact hset _ hp (pcOk_act_other htyp (by simp [Call.key])) (fun _ hh => hh)
  | set k v =>
    simp only [Settings.doAct]
    split
    · rename_i hk
      subst hk
      split
      · rename_i hi
        exact hw .hardLimit v .idle htyp (by simp [isOnce]) (fun _ => hi) trivial (fun _ hh => hh)
      · rw [← hself _ hp]
        exact hset _ hp (pcOk_act_other htyp (by simp [Call.key, isOnce])) (fun _ hh => hh)
    · rename_i hk
      split
      · rename_i hk2
        subst hk2
        split
        · rename_i hi
          exact hw .softLimit v .idle htyp (by simp [isOnce]) (fun _ => hi) trivial (fun _ hh => hh)
        · refine ⟨{ once_nd := h.core.once_nd, fresh := h.core.fresh, done := h.core.done, plain := h.core.plain, pre := h.core.pre, post := h.core.post, got := h.core.got }, ?_, h.uniq⟩
          intro u
          have := h.pcs u
          revert this
          show PcOk env s (s.pc u) → PcOk env { s with fault := true } (s.pc u)
          cases s.pc u <;> exact id
      · rename_i hk2
        have hl : k = .softLimit ∨ k = .hardLimit → s.inited = true := by
          rintro (e | e)
          · exact absurd e hk2
          · exact absurd e hk
        split
        · exact hw k v _ htyp (hdone k rfl) hl trivial (fun _ hh => hh)
        · exact hw k v _ htyp (hdone k rfl) hl trivial (fun _ hh => hh)

theorem Inv.step {env : Env} (hE : env.Sane) {s s' : St} (h : Inv env s) {a : Act} (hs : step env s a = some s') :
    Inv env s' := by
  have hpcs := h.pcs
  cases a with
  | call t c =>
    simp only [Settings.step] at hs
    split at hs
    · rename_i hc
      injection hs with hs; subst hs
      exact h.of_core t (.enter c) rfl (h.core.pc _) rfl (fun hi => hi) (fun _ _ _ => rfl) hc.2.2 (fun _ hh => hh)
    · cases hs
  | tick t =>
    simp only [Settings.step] at hs
    split at hs
    · cases hs
    · have hq := hpcs t
      split at hs
      · cases hs
      · rename_i c hp
        rw [hp] at hq
        have hsimple : PcOk env s (.act c) → Inv env { s with pc := updN s.pc t (.act c) } := fun hpo =>
          h.of_core t (.act c) rfl (h.core.pc _) rfl (fun hi => hi) (fun _ _ _ => rfl) hpo (fun _ hh => hh)
        split at hs
        · rename_i hk
          injection hs with hs; subst hs
          exact hsimple ⟨hq, by simp [hk]⟩
        · rename_i k hk
          split at hs
          · rename_i hone
            split at hs
            · rename_i hfr
              injection hs with hs; subst hs
              refine ⟨{ once_nd := ?_, fresh := ?_, done := ?_, plain := h.core.plain, pre := h.core.pre, post := h.core.post, got := h.core.got }, ?_, ?_⟩
              · intro j hj hd
                refine h.core.once_nd j hj ?_
                by_cases e : j = k
                · rw [e, hfr]; simp
                · simpa [upd, e] using hd
              · intro j hj hf
                by_cases e : j = k
                · subst e; simp [upd] at hf
                · exact h.core.fresh j hj (by simpa [upd, e] using hf)
              · intro j hj hd
                by_cases e : j = k
                · subst e; simp [upd] at hd
                · exact h.core.done j hj (by simpa [upd, e] using hd)
              · intro u
                by_cases hu : u = t
                · show PcOk env _ (updN s.pc t _ u)
                  rw [hu, updN_self]
                  exact ⟨hq, hone, hk, by simp [upd], h.core.fresh k hone hfr⟩
                · show PcOk env _ (updN s.pc t _ u)
                  rw [updN_ne _ _ hu]
                  have hup : ∀ j x, s.once j = x → x ≠ .fresh → upd s.once k .running j = x := by
                    intro j x hx hne
                    have : j ≠ k := by intro e; subst e; rw [hfr] at hx; exact hne hx.symm
                    simp [upd, this, hx]
                  exact (hpcs u).frame (fun j _ _ hr => ⟨hup j _ hr (by simp), rfl⟩) (fun j hd => hup j _ hd (by simp)) (fun hi => hi)
              · have hnone : ∀ u, ¬ inOnce k (s.pc u) := by
                  intro u hin
                  have hqu := hpcs u
                  revert hin hqu
                  cases s.pc u <;> simp only [inOnce, PcOk, false_implies] <;> intro e q <;>
                    (subst e; rw [hfr] at q; exact absurd q.2.2.2.1 (by simp))
                intro u w j hu hw
                have hu : inOnce j (updN s.pc t _ u) := hu
                have hw : inOnce j (updN s.pc t _ w) := hw
                by_cases h1 : u = t
                · by_cases h2 : w = t
                  · rw [h1, h2]
                  · rw [h1, updN_self] at hu
                    rw [updN_ne _ _ h2] at hw
                    simp only [inOnce] at hu; subst hu
                    exact absurd hw (hnone w)
                · rw [updN_ne _ _ h1] at hu
                  by_cases h2 : w = t
                  · rw [h2, updN_self] at hw
                    simp only [inOnce] at hw; subst hw
                    exact absurd hu (hnone u)
                  · rw [updN_ne _ _ h2] at hw
                    exact h.uniq u w j hu hw
            · cases hs
            · rename_i hd
              injection hs with hs; subst hs
              exact hsimple ⟨hq, fun j hj _ => by rw [hk] at hj; injection hj with e; rw [← e]; exact hd⟩
          · rename_i hone
            injection hs with hs; subst hs
            exact hsimple (pcOk_act_other hq (fun j hj => by rw [hk] at hj; injection hj with e; rw [← e]; simpa using hone))
      · rename_i k c hp
        rw [hp] at hq
        obtain ⟨q1, q2, q3, q4, q5⟩ := hq
        injection hs with hs; subst hs
        have hval : ∀ j, j ≠ k → (match onceStore env k with | none => s.vals | some n => upd s.vals k n) j = s.vals j := by
          intro j hj
          cases onceStore env k <;> simp [upd, hj]
        have hself : (match onceStore env k with | none => s.vals | some n => upd s.vals k n) k =
            (match onceStore env k with | none => s.vals k | some n => n) := by cases onceStore env k <;> simp [upd]
        have hcore : ∀ pc, Core env { s with vals := (match onceStore env k with | none => s.vals | some n => upd s.vals k n), pc := pc } := by
          intro pc
          refine { once_nd := h.core.once_nd, fresh := ?_, done := ?_, plain := ?_, pre := ?_, post := ?_, got := h.core.got }
          · intro j hj hf
            have e : j ≠ k := by intro e; subst e; have hf : s.once j = .fresh := hf; rw [q4] at hf; cases hf
            exact (hval j e).trans (h.core.fresh j hj hf)
          · intro j hj hd
            have e : j ≠ k := by intro e; subst e; have hd : s.once j = .done := hd; rw [q4] at hd; cases hd
            simp only [hval j e]
            exact h.core.done j hj hd
          · intro j hj hu
            have e : j ≠ k := by intro e; subst e; rw [q2] at hj; cases hj
            simp only [hval j e]
            exact h.core.plain j hj hu
          · intro hi
            obtain ⟨p1, p2, p3, p4⟩ := h.core.pre hi
            refine ⟨p1, p2, p3, fun j hj hn => ?_⟩
            have e : j ≠ k := by intro e; subst e; rw [setUp_not_once q2] at hj; cases hj
            exact (hval j e).trans (p4 j hj hn)
          · intro hi
            obtain ⟨p1, p2, p3⟩ := h.core.post hi
            refine ⟨p1, p2, fun j hj hn => ?_⟩
            have e : j ≠ k := by intro e; subst e; rw [setUp_not_once q2] at hj; cases hj
            simp only [hval j e]
            exact p3 j hj hn
        have hothers : ∀ u, u ≠ t → ¬ inOnce k (s.pc u) := by
          intro u hu hin
          exact hu (h.uniq u t k hin (by rw [hp]; simp [inOnce]))
        refine ⟨hcore _, ?_, ?_⟩
        · intro u
          show PcOk env _ (updN s.pc t _ u)
          by_cases hu : u = t
          · rw [hu, updN_self]
            refine ⟨q1, q2, q3, q4, ?_⟩
            show decode k ((match onceStore env k with | none => s.vals | some n => upd s.vals k n) k) = _
            rw [hself]; exact once_start q2 q5
          · rw [updN_ne _ _ hu]
            refine (hpcs u).frame (fun j hin _ hr => ⟨hr, hval j ?_⟩) (fun j hd => hd) (fun hi => hi)
            intro e; subst e; exact hothers u hu hin
        · intro u w j hu hw
          have conv : ∀ u, inOnce j (updN s.pc t (.marking k c) u) → inOnce j (s.pc u) := by
            intro u hu
            by_cases e : u = t
            · rw [e, updN_self] at hu; rw [e, hp]; exact hu
            · rwa [updN_ne _ _ e] at hu
          exact h.uniq u w j (conv u hu) (conv w hw)
      · rename_i k c hp
        rw [hp] at hq
        obtain ⟨q1, q2, q3, q4, q5⟩ := hq
        injection hs with hs; subst hs
        have hno : NoWrite s.log k := h.core.once_nd k q2 (by rw [q4]; simp)
        have hks : k ≠ .softLimit := by intro e; subst e; cases q2
        refine ⟨{ once_nd := ?_, fresh := ?_, done := ?_, plain := h.core.plain, pre := h.core.pre, post := h.core.post, got := h.core.got }, ?_, ?_⟩
        · intro j hj hd
          by_cases e : j = k
          · rw [e]; exact hno
          · exact h.core.once_nd j hj (by simpa [upd, e] using hd)
        · intro j hj hf
          by_cases e : j = k
          · subst e; simp [upd] at hf
          · exact h.core.fresh j hj (by simpa [upd, e] using hf)
        · intro j hj hd
          by_cases e : j = k
          · subst e
            show decode j (s.vals j) = expect env s.log j
            rw [expect_start hno (fun e => absurd e hks)]; exact q5
          · exact h.core.done j hj (by simpa [upd, e] using hd)
        · intro u
          show PcOk env _ (updN s.pc t _ u)
          by_cases hu : u = t
          · rw [hu, updN_self]
            refine ⟨q1, fun j hj _ => ?_⟩
            rw [q3] at hj; injection hj with e; rw [← e]; simp [upd]
          · rw [updN_ne _ _ hu]
            have hnk : ¬ inOnce k (s.pc u) := fun hin => hu (h.uniq u t k hin (by rw [hp]; simp [inOnce]))
            refine (hpcs u).frame (fun j hin _ hr => ⟨?_, rfl⟩) (fun j hd => ?_) (fun hi => hi)
            · have e : j ≠ k := by intro e; subst e; exact hnk hin
              simp [upd, e, hr]
            · by_cases e : j = k
              · simp [upd, e]
              · simp [upd, e, hd]
        · intro u w j hu hw
          have conv : ∀ u, inOnce j (updN s.pc t (.act c) u) → inOnce j (s.pc u) := by
            intro u hu
            by_cases e : u = t
            · rw [e, updN_self] at hu; exact absurd hu (by simp [inOnce])
            · rwa [updN_ne _ _ e] at hu
          exact h.uniq u w j (conv u hu) (conv w hw)
      · rename_i c hp
        injection hs with hs; subst hs
        exact h.doAct hE hp
      · rename_i v hp
        rw [hp] at hq
        injection hs with hs; subst hs
        refine h.of_core t .idle rfl (h.core.write hq.1 (by simp [isOnce]) (fun _ => hq.2) _) rfl (fun hi => hi) ?_ trivial (fun _ hh => hh)
        intro j hj _
        refine write_other ?_ ?_ <;> (intro e; subst e; cases hj)
      · injection hs with hs; subst hs
        refine h.of_core t .idle rfl { once_nd := h.core.once_nd, fresh := h.core.fresh, done := h.core.done, plain := h.core.plain, pre := h.core.pre, post := h.core.post, got := h.core.got } rfl (fun hi => hi) (fun _ _ _ => rfl) trivial (fun _ hh => hh)

theorem Inv.run {env : Env} (hE : env.Sane) {s s' : St} (h : Inv env s) {as : List Act} (hr : run env s as = some s') :
    Inv env s' := by
  induction as generalizing s with
  | nil => simp only [Settings.run] at hr; injection hr with hr; subst hr; exact h
  | cons a as ih =>
    simp only [Settings.run] at hr
    split at hr
    · cases hr
    · rename_i s1 h1
      exact ih (h.step hE h1) hr

theorem Reach.inv {env : Env} (hE : env.Sane) {s : St} (h : Reach env s) : Inv env s := by
  obtain ⟨as, hr⟩ := h
  exact (Inv.init hE).run hE hr

end Verif.Settings
