import Verif.Slab.Layout
/-! The invariant of the per-CPU slab machine. -/
namespace Verif.Slab

/-- The CPU's `stopped` flag is set in this stage. -/
def RStage.stops : RStage → Bool
  | .locked _ | .started | .fin _ => false
  | _ => true

/-- CPU `c` has been fenced after it was stopped. -/
def RStage.fenced (c : Nat) : RStage → Prop
  | .locked _ | .started | .fin _ | .stopping _ => False
  | .fencing _ todo => c ∉ todo
  | _ => True

/-- The operation comes from `Populate` and `populated` is not yet stored by it. -/
def RStage.isPop : RStage → Bool
  | .locked p | .stopping p | .fencing p _ | .ready p => p
  | .inited | .started => true
  | _ => false

def RS.stops (r : RS) (c : Nat) : Prop :=
  c < r.stopd ∧ ∀ p, r.post = some p → p.started ≤ c

def RS.fenced (r : RS) (c : Nat) : Prop :=
  (∃ l, r.todo = some l ∧ c ∉ l) ∧ ∀ p, r.post = some p → p.started ≤ c

/-- CPU `c` is stopped and fenced by thread `o`. -/
def FencedBy (w : W) (c o : Nat) : Prop :=
  (∃ st, w.rem c = some (o, st) ∧ st.fenced c) ∨ (∃ r, w.rs = some (o, r) ∧ r.fenced c)

def NoFence (w : W) (j c : Nat) : Prop := ∀ o, FencedBy w c o → o = j

/-- A cached pointer that may be used. -/
structure Good (w : W) (j : Nat) (th : Thread) (b c : Nat) : Prop where
  cpu : th.cpu = some c
  slabs : b = w.slabs
  pop : w.populated c = true
  nf : NoFence w j c
  vcpu : th.vcpu = c
  ret : th.ret = c

def PtrGood (w : W) (j : Nat) (th : Thread) : Prop :=
  th.ptr = .none ∨ ∃ b c, th.ptr = .reg b c ∧ Good w j th b c

/-- A cached pointer of a thread that is about to populate CPU `v`. -/
def PtrW (w : W) (j : Nat) (th : Thread) (v : Nat) : Prop :=
  th.ptr = .none ∨ (th.ptr = .reg w.slabs v ∧ th.cpu = some v ∧ th.vcpu = v ∧ th.ret = v ∧ NoFence w j v)

def In (w : W) (j : Nat) (th : Thread) (b c : Nat) : Prop := th.ptr = .reg b c ∧ Good w j th b c

structure GrowOK (w : W) (c k : Nat) (h : Hdr) (n : Nat) : Prop where
  cur : h.cur = (w.mem.hdr w.slabs c k).cur
  fin : h.fin = (w.mem.hdr w.slabs c k).fin + n
  le : h.fin ≤ w.begins k + w.caps k

def ThOK (cfg : Cfg) (w : W) (j : Nat) (th : Thread) : Prop :=
  match th.pc with
  | .idle => PtrGood w j th
  | .push0 k o => Valid cfg.nc k ∧ GoodObj o ∧ PtrGood w j th
  | .push1 k o b c => Valid cfg.nc k ∧ GoodObj o ∧ In w j th b c
  | .push2 k o b c cur => Valid cfg.nc k ∧ GoodObj o ∧ In w j th b c ∧ cur = (w.mem.hdr b c k).cur
  | .push3 k o b c cur => Valid cfg.nc k ∧ GoodObj o ∧ In w j th b c ∧ cur = (w.mem.hdr b c k).cur ∧
      cur < (w.mem.hdr b c k).fin
  | .push4 k o b c cur => Valid cfg.nc k ∧ GoodObj o ∧ In w j th b c ∧ cur = (w.mem.hdr b c k).cur ∧
      cur < (w.mem.hdr b c k).fin ∧ w.mem.slot b c cur = o
  | .pop0 k => Valid cfg.nc k ∧ PtrGood w j th
  | .pop1 k b c => Valid cfg.nc k ∧ In w j th b c
  | .pop2 k b c cur => Valid cfg.nc k ∧ In w j th b c ∧ cur = (w.mem.hdr b c k).cur
  | .pop3 k b c cur res => Valid cfg.nc k ∧ In w j th b c ∧ cur = (w.mem.hdr b c k).cur ∧ w.begins k < cur ∧
      res = w.mem.slot b c (cur - 1)
  | .pop4 k b c cur res => Valid cfg.nc k ∧ In w j th b c ∧ cur = (w.mem.hdr b c k).cur ∧ w.begins k < cur ∧
      res = w.mem.slot b c (cur - 1)
  | .pushB0 k l => Valid cfg.nc k ∧ (l ≠ [] ∧ ∀ o ∈ l, GoodObj o) ∧ PtrGood w j th
  | .pushB1 k l b c => Valid cfg.nc k ∧ (l ≠ [] ∧ ∀ o ∈ l, GoodObj o) ∧ In w j th b c
  | .pushB2 k l b c cur => Valid cfg.nc k ∧ (l ≠ [] ∧ ∀ o ∈ l, GoodObj o) ∧ In w j th b c ∧
      cur = (w.mem.hdr b c k).cur
  | .pushB3 k l b c cur m i => Valid cfg.nc k ∧ (l ≠ [] ∧ ∀ o ∈ l, GoodObj o) ∧ In w j th b c ∧
      cur = (w.mem.hdr b c k).cur ∧ cur < (w.mem.hdr b c k).fin ∧ m = min l.length ((w.mem.hdr b c k).fin - cur) ∧
      i ≤ m ∧ ∀ x, x < i → l[l.length - 1 - x]? = some (w.mem.slot b c (cur + x))
  | .popB0 k n => Valid cfg.nc k ∧ 0 < n ∧ PtrGood w j th
  | .popB1 k n b c => Valid cfg.nc k ∧ 0 < n ∧ In w j th b c
  | .popB2 k n b c cur => Valid cfg.nc k ∧ 0 < n ∧ In w j th b c ∧ cur = (w.mem.hdr b c k).cur
  | .popB3 k n b c cur m got => Valid cfg.nc k ∧ 0 < n ∧ In w j th b c ∧ cur = (w.mem.hdr b c k).cur ∧
      w.begins k < cur ∧ m = min n (cur - w.begins k) ∧ got.length ≤ m ∧
      got = (List.range got.length).map (fun x => w.mem.slot b c (cur - 1 - x))
  | .grow0 k _ => Valid cfg.nc k ∧ PtrGood w j th
  | .grow1 k _ b => Valid cfg.nc k ∧ PtrGood w j th ∧ (th.ptr ≠ .none → b = w.slabs)
  | .grow2 k _ b mx => Valid cfg.nc k ∧ PtrGood w j th ∧ (th.ptr ≠ .none → b = w.slabs ∧ mx = w.caps k)
  | .grow3 k _ b mx h => Valid cfg.nc k ∧ PtrGood w j th ∧
      (th.ptr ≠ .none → b = w.slabs ∧ mx = w.caps k ∧ h = w.mem.hdr w.slabs th.ret k)
  | .grow4 k len b h n => (Valid cfg.nc k ∧ n ≤ len) ∧ PtrGood w j th ∧ (th.ptr ≠ .none → b = w.slabs ∧ GrowOK w th.ret k h n)
  | .grow5 k len b h n => (Valid cfg.nc k ∧ n ≤ len) ∧ PtrGood w j th ∧ th.ptr ≠ .none ∧ b = w.slabs ∧ GrowOK w th.ret k h n
  | .cache1 => True
  | .cache2 => th.ptr = .none ∨ th.ptr = .mask
  | .cache3 v => v < cfg.n ∧ (th.ptr = .none ∨ (th.ptr = .mask ∧ th.cpu = some v ∧ th.vcpu = v))
  | .cache4 v _ => v < cfg.n ∧ (th.ptr = .none ∨ (th.ptr = .mask ∧ th.cpu = some v ∧ th.vcpu = v))
  | .cache5 v _ => v < cfg.n ∧ th.ptr = .mask ∧ th.cpu = some v ∧ th.vcpu = v
  | .cache6 v b => v < cfg.n ∧ (th.ptr = .none ∨ (th.ptr = .reg b v ∧ th.cpu = some v ∧ th.vcpu = v))
  | .cache7 v b => v < cfg.n ∧
      (th.ptr = .none ∨ (th.ptr = .reg b v ∧ th.cpu = some v ∧ th.vcpu = v ∧ NoFence w j v))
  | .cache8 v => v < cfg.n ∧ PtrW w j th v
  | .cache9 v => v < cfg.n ∧ PtrW w j th v
  | .remote c => ∃ st, w.rem c = some (j, st) ∧ if st.isPop then PtrW w j th c else PtrGood w j th
  | .all => ∃ r, w.rs = some (j, r) ∧ if r.todo = none then PtrGood w j th else th.ptr = .none

/-- The registers of the operation on locked CPU `c`. -/
def StOK (cfg : Cfg) (w : W) (c : Nat) : RStage → Prop
  | .locked _ => True
  | .stopping p | .fencing p _ | .ready p => w.populated c = !p
  | .inited | .started => w.populated c = false ∧ Fresh cfg.nc w.caps w.mem w.slabs c
  | .fin _ => True
  | .dr1 k => w.populated c = true ∧ 1 ≤ k
  | .dr2 k beg h => w.populated c = true ∧ Valid cfg.nc k ∧ beg = w.begins k ∧ h = w.mem.hdr w.slabs c k
  | .dr3 k beg => w.populated c = true ∧ Valid cfg.nc k ∧ beg = w.begins k
  | .sh1 k _ | .go1 k _ => w.populated c = true ∧ Valid cfg.nc k
  | .sh2 k _ beg h => w.populated c = true ∧ Valid cfg.nc k ∧ beg = w.begins k ∧ h = w.mem.hdr w.slabs c k
  | .sh3 k len n h => w.populated c = true ∧ (Valid cfg.nc k ∧ n ≤ len ∧ h.fin + n = (w.mem.hdr w.slabs c k).fin) ∧ w.begins k ≤ h.cur ∧
      h.cur ≤ (w.mem.hdr w.slabs c k).cur ∧ h.cur ≤ h.fin ∧ h.fin ≤ (w.mem.hdr w.slabs c k).fin
  | .go2 k len n h => w.populated c = true ∧ (Valid cfg.nc k ∧ n ≤ len) ∧ GrowOK w c k h n

structure PostOK (cfg : Cfg) (w : W) (p : Post) : Prop where
  le : p.started ≤ cfg.n
  ok : 1 ≤ p.ok
  ne : ∀ ob obeg, p.old = some (ob, obeg) → ob ≠ w.slabs
  pend : ∀ ob obeg, p.old = some (ob, obeg) → ∀ c k, w.populated c = true → Valid cfg.nc k → p.pending c k = true →
    obeg k ≠ 0 ∧ obeg k ≤ (w.mem.hdr ob c k).cur ∧ (w.mem.hdr ob c k).cur ≤ (w.mem.hdr ob c k).fin
  hand : ∀ ob obeg h, p.old = some (ob, obeg) → p.st = .hand h → h = w.mem.hdr ob p.oc p.ok
  unl : p.unlocked = true → p.started = cfg.n ∧ cfg.n ≤ p.oc

/-- The state of the operation on all CPUs. -/
structure RsOK (cfg : Cfg) (w : W) (r : RS) : Prop where
  stopd : r.stopd ≤ cfg.n
  initd : ∀ nb ncaps lim, r.plan = some (nb, ncaps, lim) → r.initd ≤ r.stopd
  todo : r.todo ≠ none → r.stopd = cfg.n
  plan : ∀ nb ncaps lim, r.plan = some (nb, ncaps, lim) → r.post = none →
    nb ≠ w.slabs ∧ Fits cfg.nc ncaps lim ∧ ∀ c, c < r.initd → w.populated c = true → Fresh cfg.nc ncaps w.mem nb c
  post : ∀ p, r.post = some p → r.todo = some [] ∧ PostOK cfg w p

structure K (cfg : Cfg) (w : W) : Prop where
  fit : Fits cfg.nc w.caps w.lim
  beg : ∀ k, Valid cfg.nc k → w.begins k = beginOf cfg.nc w.caps k
  reg : ∀ c, w.populated c = true → RegOK cfg.nc w.caps w.begins w.mem w.slabs c
  popn : ∀ c, w.populated c = true → c < cfg.n
  uniq : ∀ (i j : Nat) (th th' : Thread) (c : Nat), w.thr[i]? = some th → w.thr[j]? = some th' → th.cpu = some c → th'.cpu = some c → i = j
  cpus : ∀ (i : Nat) (th : Thread) (c : Nat), w.thr[i]? = some th → th.cpu = some c → c < cfg.n
  thr : ∀ i th, w.thr[i]? = some th → ThOK cfg w i th
  off : ∀ (i : Nat) (th : Thread), w.thr[i]? = some th → th.cpu = none → th.ptr = .none
  rem : ∀ c i st, w.rem c = some (i, st) → c < cfg.n ∧ (∃ th, w.thr[i]? = some th ∧ th.pc = .remote c) ∧ StOK cfg w c st
  rs : ∀ i r, w.rs = some (i, r) → (∃ th, w.thr[i]? = some th ∧ th.pc = .all) ∧ RsOK cfg w r
  excl : w.allFree = false → ∀ c, w.rem c = none
  stop : ∀ c, c < cfg.n → (w.stopped c = true ↔
    (∃ i st, w.rem c = some (i, st) ∧ st.stops = true) ∨ (∃ i r, w.rs = some (i, r) ∧ r.stops c))

/-! ### Frame -/

/-- What thread `j` running on CPU `c` relies on is the same. -/
structure Agree (w w' : W) (j c : Nat) : Prop where
  slabs : w'.slabs = w.slabs
  begins : w'.begins = w.begins
  caps : w'.caps = w.caps
  pop : w.populated c = true → w'.populated c = true
  nf : NoFence w' j c
  hdr : ∀ k, w'.mem.hdr w.slabs c k = w.mem.hdr w.slabs c k
  slot : ∀ i, w'.mem.slot w.slabs c i = w.mem.slot w.slabs c i

theorem Good.frame {w w' : W} {j th b c} (g : Good w j th b c) (a : Agree w w' j c) : Good w' j th b c :=
  ⟨g.cpu, g.slabs.trans a.slabs.symm, a.pop g.pop, a.nf, g.vcpu, g.ret⟩

theorem PtrGood.frame {w w' : W} {j th} (g : PtrGood w j th)
    (a : ∀ c, th.cpu = some c → NoFence w j c → Agree w w' j c) : PtrGood w' j th := by
  rcases g with g | ⟨b, c, h, g⟩
  · exact Or.inl g
  · exact Or.inr ⟨b, c, h, g.frame (a c g.cpu g.nf)⟩

theorem PtrW.frame {w w' : W} {j th v} (g : PtrW w j th v)
    (a : ∀ c, th.cpu = some c → NoFence w j c → Agree w w' j c) : PtrW w' j th v := by
  rcases g with g | ⟨h, h1, h2, h3, h4⟩
  · exact Or.inl g
  · have := a v h1 h4
    exact Or.inr ⟨by rw [this.slabs]; exact h, h1, h2, h3, this.nf⟩

theorem In.frame {w w' : W} {j th b c} (g : In w j th b c)
    (a : ∀ c, th.cpu = some c → NoFence w j c → Agree w w' j c) :
    In w' j th b c ∧ (∀ k, w'.mem.hdr b c k = w.mem.hdr b c k) ∧ (∀ i, w'.mem.slot b c i = w.mem.slot b c i) ∧
      w'.begins = w.begins := by
  have := a c g.2.cpu g.2.nf
  refine ⟨⟨g.1, g.2.frame this⟩, ?_, ?_, this.begins⟩
  · rw [g.2.slabs]; exact this.hdr
  · rw [g.2.slabs]; exact this.slot

theorem PtrGood.agree {w w' : W} {j th} (g : PtrGood w j th) (h : th.ptr ≠ .none)
    (a : ∀ c, th.cpu = some c → NoFence w j c → Agree w w' j c) : Agree w w' j th.ret := by
  rcases g with g | ⟨b, c, _, g⟩
  · exact absurd g h
  · rw [g.ret]; exact a c g.cpu g.nf

theorem GrowOK.frame {w w' : W} {j c k h n} (g : GrowOK w c k h n) (a : Agree w w' j c) : GrowOK w' c k h n := by
  refine ⟨?_, ?_, ?_⟩
  · rw [a.slabs, a.hdr]; exact g.cur
  · rw [a.slabs, a.hdr]; exact g.fin
  · rw [a.begins, a.caps]; exact g.le

theorem ThOK.frame {cfg w w' j th} (h : ThOK cfg w j th)
    (a : ∀ c, th.cpu = some c → NoFence w j c → Agree w w' j c)
    (hr : ∀ c, th.pc = .remote c → w'.rem c = w.rem c) (hs : th.pc = .all → w'.rs = w.rs) : ThOK cfg w' j th := by
  revert h
  unfold ThOK
  split
  case h_1 => exact fun g => g.frame a
  case h_2 => exact fun ⟨a1, a2, g⟩ => ⟨a1, a2, g.frame a⟩
  case h_3 => exact fun ⟨a1, a2, g⟩ => ⟨a1, a2, (g.frame a).1⟩
  case h_4 => rintro ⟨a1, a2, g, r1⟩; obtain ⟨f1, f2, f3, f4⟩ := g.frame a; rw [f2]; exact ⟨a1, a2, f1, r1⟩
  case h_5 => rintro ⟨a1, a2, g, r1⟩; obtain ⟨f1, f2, f3, f4⟩ := g.frame a; rw [f2]; exact ⟨a1, a2, f1, r1⟩
  case h_6 => rintro ⟨a1, a2, g, r1⟩; obtain ⟨f1, f2, f3, f4⟩ := g.frame a; rw [f2, f3]; exact ⟨a1, a2, f1, r1⟩
  case h_7 => exact fun ⟨a1, g⟩ => ⟨a1, g.frame a⟩
  case h_8 => exact fun ⟨a1, g⟩ => ⟨a1, (g.frame a).1⟩
  case h_9 => rintro ⟨a1, g, r1⟩; obtain ⟨f1, f2, f3, f4⟩ := g.frame a; rw [f2]; exact ⟨a1, f1, r1⟩
  case h_10 => rintro ⟨a1, g, r1⟩; obtain ⟨f1, f2, f3, f4⟩ := g.frame a; rw [f2, f3, f4]; exact ⟨a1, f1, r1⟩
  case h_11 => rintro ⟨a1, g, r1⟩; obtain ⟨f1, f2, f3, f4⟩ := g.frame a; rw [f2, f3, f4]; exact ⟨a1, f1, r1⟩
  case h_12 => exact fun ⟨a1, a2, g⟩ => ⟨a1, a2, g.frame a⟩
  case h_13 => exact fun ⟨a1, a2, g⟩ => ⟨a1, a2, (g.frame a).1⟩
  case h_14 => rintro ⟨a1, a2, g, r1⟩; obtain ⟨f1, f2, f3, f4⟩ := g.frame a; rw [f2]; exact ⟨a1, a2, f1, r1⟩
  case h_15 =>
    rintro ⟨a1, a2, g, r1, r2, r3, r4, r5⟩; obtain ⟨f1, f2, f3, f4⟩ := g.frame a
    rw [f2]; exact ⟨a1, a2, f1, r1, r2, r3, r4, fun x hx => by rw [f3]; exact r5 x hx⟩
  case h_16 => exact fun ⟨a1, a2, g⟩ => ⟨a1, a2, g.frame a⟩
  case h_17 => exact fun ⟨a1, a2, g⟩ => ⟨a1, a2, (g.frame a).1⟩
  case h_18 => rintro ⟨a1, a2, g, r1⟩; obtain ⟨f1, f2, f3, f4⟩ := g.frame a; rw [f2]; exact ⟨a1, a2, f1, r1⟩
  case h_19 =>
    rintro ⟨a1, a2, g, r1, r2, r3, r4, r5⟩; obtain ⟨f1, f2, f3, f4⟩ := g.frame a
    rw [f2, f4]; refine ⟨a1, a2, f1, r1, r2, r3, r4, ?_⟩
    rw [r5]; simp [f3]
  case h_20 => exact fun ⟨a1, g⟩ => ⟨a1, g.frame a⟩
  case h_21 => exact fun ⟨a1, g, r⟩ => ⟨a1, g.frame a, fun hp => by rw [(g.agree hp a).slabs]; exact r hp⟩
  case h_22 =>
    exact fun ⟨a1, g, r⟩ => ⟨a1, g.frame a, fun hp => by rw [(g.agree hp a).slabs, (g.agree hp a).caps]; exact r hp⟩
  case h_23 =>
    exact fun ⟨a1, g, r⟩ => ⟨a1, g.frame a, fun hp => by
      rw [(g.agree hp a).slabs, (g.agree hp a).caps, (g.agree hp a).hdr]; exact r hp⟩
  case h_24 =>
    exact fun ⟨a1, g, r⟩ => ⟨a1, g.frame a, fun hp => by
      rw [(g.agree hp a).slabs]; exact ⟨(r hp).1, (r hp).2.frame (g.agree hp a)⟩⟩
  case h_25 =>
    exact fun ⟨a1, g, hp, r1, r2⟩ => ⟨a1, g.frame a, hp, by rw [(g.agree hp a).slabs]; exact r1, r2.frame (g.agree hp a)⟩
  case h_26 => exact id
  case h_27 => exact id
  case h_28 => exact id
  case h_29 => exact id
  case h_30 => exact id
  case h_31 => exact id
  case h_32 =>
    rintro ⟨a1, r | ⟨r1, r2, r3, r4⟩⟩
    · exact ⟨a1, Or.inl r⟩
    · exact ⟨a1, Or.inr ⟨r1, r2, r3, (a _ r2 r4).nf⟩⟩
  case h_33 => exact fun ⟨a1, g⟩ => ⟨a1, g.frame a⟩
  case h_34 => exact fun ⟨a1, g⟩ => ⟨a1, g.frame a⟩
  case h_35 c hc =>
    rintro ⟨st, h1, h2⟩
    refine ⟨st, (hr c hc).trans h1, ?_⟩
    split at h2
    · rename_i e; rw [if_pos e]; exact h2.frame a
    · rename_i e; rw [if_neg e]; exact h2.frame a
  case h_36 hc =>
    rintro ⟨r, h1, h2⟩
    refine ⟨r, (hs hc).trans h1, ?_⟩
    split at h2
    · rename_i e; rw [if_pos e]; exact h2.frame a
    · rename_i e; rw [if_neg e]; exact h2

end Verif.Slab
