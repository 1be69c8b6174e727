/-
Model of the set of hugepage ranges: /repo/tcmalloc/huge_address_map.{h,cc}, `HugeRange` of huge_pages.h.

The treap is a functional tree.  Parent pointers are not stored: "fix `longest` from `n` up to the root" is
done on the way back from the recursion.  A `Node*` held by a caller is named by the start of its range (starts
are unique); the functions taking such a node look for it in the whole tree and never use the order of the
keys to find it.  Hugepage numbers and lengths are naturals (numbers are below 2^43, so no sum of two
wraps).  Not modelled: `when_` (timestamps, floating point; never read outside `Merge`) and printing.
-/
namespace Verif.HugeAddressMap

/-- `HugeRange`, huge_pages.h:307-360: first hugepage and number of hugepages. -/
structure Rng where
  s : Nat
  n : Nat
  deriving Repr, DecidableEq

/-- `contains(HugePage)`, huge_pages.h:346. -/
def Rng.contains (r : Rng) (p : Nat) : Bool := decide (p ≥ r.s) && decide (p - r.s < r.n)

/-- `intersects`, huge_pages.h:351-353. -/
def Rng.intersects (a r : Rng) : Bool := r.contains a.s || a.contains r.s

/-- `precedes`, huge_pages.h:357. -/
def Rng.precedes (a r : Rng) : Bool := decide (a.s + a.n = r.s)

/-- `Join`, huge_pages.h:373-376; the check is at the call sites. -/
def join (a b : Rng) : Rng := ⟨a.s, a.n + b.n⟩

/-- `Node`, huge_address_map.h:45-78. -/
structure NodeData where
  r : Rng
  prio : Int
  longest : Nat
  deriving Repr, DecidableEq

inductive Tree where
  | leaf
  | node (l : Tree) (x : NodeData) (r : Tree)
  deriving Repr, DecidableEq

/-- `n ? n->longest_ : 0`. -/
def Tree.longest : Tree → Nat
  | .leaf => 0
  | .node _ x _ => x.longest

/-- `Node::FixLongest`, huge_address_map.cc:274-280, on a node with the given children. -/
def fix (l : Tree) (x : NodeData) (r : Tree) : Tree :=
  .node l { x with longest := max (max l.longest r.longest) x.r.n } r

/-- `first`, huge_address_map.cc:88-98. -/
def first : Tree → Option Rng
  | .leaf => none
  | .node .leaf x _ => some x.r
  | .node l _ _ => first l

/-- `Node::next`, huge_address_map.cc:31-47, of the node starting at `k`: the leftmost node of the right
subtree, or the closest ancestor (`up`) in whose left subtree the node lies.  Outer `none`: no such node. -/
def nextOf (k : Nat) : Tree → Option Rng → Option (Option Rng)
  | .leaf, _ => none
  | .node l x r, up =>
    if x.r.s = k then some ((first r).or up)
    else
      match nextOf k l (some x.r) with
      | some o => some o
      | none => nextOf k r up

/-- `Predecessor`, huge_address_map.cc:135-154, with the best candidate so far. -/
def pred (p : Nat) : Tree → Option Rng → Option Rng
  | .leaf, best => best
  | .node l x r, best =>
    if x.r.contains p then some x.r
    else if p < x.r.s then pred p l best
    else pred p r (some x.r)

/-- The splitting loop of `Insert` with the repair of `longest` on both paths,
huge_address_map.cc:245-271. -/
def split (p : Nat) : Tree → Tree × Tree
  | .leaf => (.leaf, .leaf)
  | .node l x r =>
    if x.r.s < p then
      (fix l x (split p r).1, (split p r).2)
    else
      ((split p l).1, fix (split p l).2 x r)

/-- The walk down and the placement of the new node, huge_address_map.cc:223-271.  The flag says that a
subtree was split, in which case `FixLongest` runs up to the root. -/
def insertNode (r : Rng) (prio : Int) : Tree → Tree × Bool
  | .leaf => (.node .leaf ⟨r, prio, r.n⟩ .leaf, false)
  | .node a x b =>
    if x.prio ≥ prio then
      let x' := { x with longest := max x.longest r.n }
      if x.r.s < r.s then
        let q := insertNode r prio b
        (if q.2 then fix a x' q.1 else .node a x' q.1, q.2)
      else
        let q := insertNode r prio a
        (if q.2 then fix q.1 x' b else .node q.1 x' b, q.2)
    else
      (fix (split r.s (.node a x b)).1 ⟨r, prio, r.n⟩ (split r.s (.node a x b)).2, true)

def Tree.nodes : Tree → Nat
  | .leaf => 0
  | .node l _ r => l.nodes + r.nodes + 1

/-- The merging loop of `Remove`, huge_address_map.cc:316-349: `reorder_maybe` chooses the top. -/
def meld (t b : Tree) : Tree :=
  match t, b with
  | t, .leaf => t
  | .leaf, .node lb xb rb => .node lb xb rb
  | .node lt xt rt, .node lb xb rb =>
    if xt.prio < xb.prio then
      if xt.r.s < xb.r.s then
        .node (meld lb (.node lt xt rt)) { xb with longest := max xb.longest xt.longest } rb
      else .node lb { xb with longest := max xb.longest xt.longest } (meld rb (.node lt xt rt))
    else
      if xb.r.s < xt.r.s then
        .node (meld lt (.node lb xb rb)) { xt with longest := max xt.longest xb.longest } rt
      else .node lt { xt with longest := max xt.longest xb.longest } (meld rt (.node lb xb rb))
termination_by t.nodes + b.nodes
decreasing_by all_goals (simp only [Tree.nodes]; omega)

/-- `Remove`'s change of the tree, huge_address_map.cc:289-350, for the node starting at `k`; ancestors get
`FixLongest` with the node's `longest` replaced by that of its children. -/
def removeAt (k : Nat) : Tree → Option Tree
  | .leaf => none
  | .node l x r =>
    if x.r.s = k then some (meld l r)
    else
      match removeAt k l with
      | some l' => some (fix l' x r)
      | none =>
        match removeAt k r with
        | some r' => some (fix l x r')
        | none => none

/-- `n->range_ = q; FixLongest(n)` for the node starting at `k`. -/
def setRange (k : Nat) (q : Rng) : Tree → Option Tree
  | .leaf => none
  | .node l x r =>
    if x.r.s = k then some (fix l { x with r := q } r)
    else
      match setRange k q l with
      | some l' => some (fix l' x r)
      | none =>
        match setRange k q r with
        | some r' => some (fix l x r')
        | none => none

/-- The range of the node starting at `k` (`n->range_`). -/
def lookup (k : Nat) : Tree → Option Rng
  | .leaf => none
  | .node l x r =>
    if x.r.s = k then some x.r
    else
      match lookup k l with
      | some q => some q
      | none => lookup k r

/-- The members, huge_address_map.h:110-131; the list of unused nodes is its length. -/
structure HMap where
  root : Tree
  used : Nat
  total : Nat
  freeN : Nat
  created : Nat
  seed : Nat
  deriving Repr

def HMap.init : HMap := ⟨.leaf, 0, 0, 0, 0, 0⟩

/-- `ExponentialBiased::NextRandom`, internal/exponential_biased.h:33-41. -/
def nextRandom (rnd : Nat) : Nat := (0x5DEECE66D * rnd + 0xB) % 2 ^ 48
/-- `int prio = GetRandom(seed)`, exponential_biased.h:46-48 (32 bits, then signed). -/
def prioOf (rnd : Nat) : Int :=
  let v : Nat := (rnd >>> 16) % 2 ^ 32
  if v < 2 ^ 31 then (v : Int) else (v : Int) - 2 ^ 32

/-- `Remove`, huge_address_map.cc:289-358 (with `Put`); `none` = no such node. -/
def remove (m : HMap) (k : Nat) : Option HMap :=
  match lookup k m.root with
  | none => none
  | some r =>
    match removeAt k m.root with
    | none => none
    | some t => some { m with root := t, total := m.total - r.n, used := m.used - 1, freeN := m.freeN + 1 }

/-- `Merge`, huge_address_map.cc:161-199. -/
def merge (m : HMap) (b : Option Rng) (r : Rng) (a : Option Rng) : Option HMap :=
  match b, a with
  | some b, none =>
    match setRange b.s (join b r) m.root with
    | none => none
    | some t => some { m with root := t }
  | none, some a =>
    match setRange a.s (join r a) m.root with
    | none => none
    | some t => some { m with root := t }
  | some b, some a =>
    match remove { m with total := m.total + a.n } a.s with
    | none => none
    | some m1 =>
      match setRange b.s (join b (join r a)) m1.root with
      | none => none
      | some t => some { m1 with root := t }
  | none, none => none

/-- `Get`, huge_address_map.cc:360-375: the counters and the priority. -/
def getNode (m : HMap) : HMap :=
  { m with used := m.used + 1, seed := nextRandom m.seed,
           created := if m.freeN = 0 then m.created + 1 else m.created,
           freeN := if m.freeN = 0 then 0 else m.freeN - 1 }

/-- `o && o->range_.intersects(r)`, huge_address_map.cc:206, 208. -/
def meets (o : Option Rng) (r : Rng) : Bool :=
  match o with | some b => b.intersects r | none => false
/-- `before && before->range_.precedes(r)`, huge_address_map.cc:209. -/
def endsAt (o : Option Rng) (r : Rng) : Bool :=
  match o with | some b => b.precedes r | none => false
/-- `after && r.precedes(after->range_)`, huge_address_map.cc:210, 216. -/
def startsAt (r : Rng) (o : Option Rng) : Bool :=
  match o with | some a => r.precedes a | none => false
/-- `before ? before->next() : first()`, huge_address_map.cc:207. -/
def afterOf (t : Tree) (before : Option Rng) : Option (Option Rng) :=
  match before with | some b => nextOf b.s t none | none => some (first t)

/-- `Insert`, huge_address_map.cc:201-272; `none` = a failed check. -/
def insert (m0 : HMap) (r : Rng) : Option HMap :=
  let m := { m0 with total := m0.total + r.n }
  let before := pred r.s m.root none
  if meets before r then none
  else
    match afterOf m.root before with
    | none => none
    | some after =>
      if meets after r then none
      else if endsAt before r then
        if startsAt r after then merge m before r after
        else merge m before r none
      else if startsAt r after then merge m none r after
      else
        let m' := getNode m
        some { m' with root := (insertNode r (prioOf m'.seed) m.root).1 }

/-- The calls of users: `Insert(r)`, and `Remove(n)` of the node starting at `k`. -/
inductive Op where
  | insert (r : Rng)
  | remove (k : Nat)
  deriving Repr

def step (m : HMap) : Op → Option HMap
  | .insert r => insert m r
  | .remove k => remove m k

def run : HMap → List Op → Option HMap
  | m, [] => some m
  | m, o :: os =>
    match step m o with
    | none => none
    | some m' => run m' os

end Verif.HugeAddressMap
