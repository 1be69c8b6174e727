/-
Model of how the allocator learns about the machine: `ParseCpulist` and `NumPossibleCPUsNoCache`
(/repo/tcmalloc/internal/sysinfo.cc), `InitNumaTopology` and `NumaTopology`
(/repo/tcmalloc/internal/numa.{h,cc}), and `CacheTopology` (/repo/tcmalloc/internal/cache_topology.{h,cc}).

A sysfs file is the text it holds, together with how much each `read` call returns.  A failed
`TC_CHECK` and undefined behaviour are `none` in the results of the initialisers.
-/
namespace Verif.Topology

abbrev Str := List Char

/-- `kMaxCpus`, cpu_utils.h:30. -/
def kMaxCpus : Nat := 2048

/-- `CpuSet`, cpu_utils.h:34-80. -/
abbrev CpuSet := Nat → Bool

def CpuSet.add (s : CpuSet) (c : Nat) : CpuSet := fun x => x == c || s x
def CpuSet.clr (s : CpuSet) (c : Nat) : CpuSet := fun x => x != c && s x
/-- `Count() != 0`. -/
def CpuSet.nonempty (s : CpuSet) : Bool := (List.range kMaxCpus).any s
/-- `FindFirstSet`, cpu_utils.h:45-54 (−1 is `none`). -/
@[irreducible] def CpuSet.first (s : CpuSet) : Option Nat := (List.range kMaxCpus).find? s

/-- An open file: its text, and for each `read` call how many bytes it returns at most (at least
one unless at the end of the file), or that it fails. -/
structure File where
  data : Str
  sched : Nat → Option Nat

/-- The `n`th `read` of `count` bytes when `data` is left: what it returns. -/
def File.read (f : File) (n : Nat) (data : Str) (count : Nat) : Option Str :=
  (f.sched n).map fun k => data.take (min count (max 1 k))

/-- ASCII white space. -/
def isSpace (c : Char) : Bool :=
  c == ' ' || c == '\t' || c == '\n' || c == '\x0b' || c == '\x0c' || c == '\r'

/-- The value of decimal digits. -/
def digitsVal (s : Str) : Nat := s.foldl (fun v c => v * 10 + (c.toNat - 48)) 0

/-- The digits after an optional sign. -/
def parseDigits (neg : Bool) (s : Str) : Option Int :=
  if s.isEmpty || !s.all Char.isDigit then none
  else if neg then
    if digitsVal s ≤ 2147483648 then some (-(digitsVal s : Int)) else none
  else if digitsVal s ≤ 2147483647 then some (digitsVal s) else none

def trim (s : Str) : Str := ((s.dropWhile isSpace).reverse.dropWhile isSpace).reverse

/-- A number with an optional sign. -/
def signed : Str → Option Int
  | [] => none
  | c :: r =>
    if c == '-' then parseDigits true r
    else if c == '+' then parseDigits false r
    else parseDigits false (c :: r)

/-- `absl::SimpleAtoi` into an `int`: white space at both ends is ignored, a sign is allowed, and
anything else that is not a number in range fails. -/
def atoi (s : Str) : Option Int := signed (trim s)

/-- `IsInBounds`, sysinfo.cc:40; the number as an index. -/
def inBounds (x : Option Int) : Option Nat :=
  x.bind fun v => if 0 ≤ v ∧ v < (kMaxCpus : Int) then some v.toNat else none

/-- The size of the buffer, sysinfo.cc:48. -/
def kBuf : Nat := 16

/-- The state of the loop of `ParseCpulist`: the first `carry_over` bytes of the buffer, what is
left of the file, the number of reads so far, `cpu_from` (`none` for −1) and the set. -/
structure PState where
  carry : Str
  data : Str
  n : Nat
  from? : Option Nat
  set : CpuSet

/-- The result of one iteration. -/
inductive Iter where
  /-- `return std::nullopt`. -/
  | fail
  /-- `break`, then `return set`. -/
  | done (s : CpuSet)
  | go (st : PState)

/-- `set.Set(c)` for `c` from `a` to `b`. -/
def addRange (s : CpuSet) (a b : Nat) : CpuSet := fun x => (decide (a ≤ x) && decide (x ≤ b)) || s x

/-- The end of an iteration, sysinfo.cc:98-99: `consumed` bytes of `current` are dropped. -/
def PState.next (st : PState) (current : Str) (consumed : Nat) : PState :=
  { st with carry := current.drop consumed }

/-- The comma branch, sysinfo.cc:77-95.  `e` is where the number ends. -/
def commaBranch (st : PState) (current : Str) (e : Nat) (consumed : Nat) : Iter :=
  match inBounds (atoi (current.take e)) with
  | none => .fail
  | some cpu =>
    match st.from? with
    | some a => .go ({ st with set := addRange st.set a cpu, from? := none }.next current consumed)
    | none => .go ({ st with set := st.set.add cpu }.next current consumed)

/-- The dash branch, sysinfo.cc:71-76. -/
def dashBranch (st : PState) (current : Str) (dash : Nat) : Iter :=
  match inBounds (atoi (current.take dash)) with
  | none => .fail
  | some cpu => .go ({ st with from? := some cpu }.next current (dash + 1))

/-- The three branches, sysinfo.cc:68-97, for `current` after a read of `rc` bytes. -/
def branch (st : PState) (current : Str) (rc : Nat) : Iter :=
  match current.findIdx? (· == '-'), current.findIdx? (· == ',') with
  | some dash, some comma =>
    if dash < comma then dashBranch st current dash
    else commaBranch st current comma (comma + 1)
  | some dash, none => dashBranch st current dash
  | none, some comma => commaBranch st current comma (comma + 1)
  | none, none =>
    if rc = 0 then commaBranch st current current.length current.length
    else .go (st.next current 0)

/-- One iteration of `ParseCpulist`, sysinfo.cc:52-100. -/
def iter (f : File) (st : PState) : Iter :=
  match f.read st.n st.data (kBuf - st.carry.length) with
  | none => .fail
  | some chunk =>
    let current := st.carry ++ chunk
    let st := { st with data := st.data.drop chunk.length, n := st.n + 1 }
    if current.isEmpty && chunk.length == 0 then .done st.set
    else if current == ['\n'] && chunk.length == 0 then .done st.set
    else branch st current chunk.length

/-- The loop.  The outer `none` means that `fuel` iterations were not enough. -/
def loop (f : File) : Nat → PState → Option (Option CpuSet)
  | 0, _ => none
  | fuel + 1, st =>
    match iter f st with
    | .fail => some none
    | .done s => some (some s)
    | .go st' => loop f fuel st'

/-- `ParseCpulist`, sysinfo.cc:43-103. -/
def parseCpulist (f : File) : Option (Option CpuSet) :=
  loop f (2 * f.data.length + 2) ⟨[], f.data, 0, none, fun _ => false⟩

/-- The set parsed, if any. -/
def parsed (f : File) : Option CpuSet := (parseCpulist f).getD none

/-- `NumPossibleCPUsNoCache`, sysinfo.cc:107-140: one more than the largest member. -/
def numPossibleCPUs (possible : File) : Option Nat :=
  (parsed possible).bind fun s =>
    ((List.range kMaxCpus).filter s).foldl (fun m i => some (max i (m.getD 0))) none |>.map (· + 1)

/-! ### NUMA -/

/-- `kNumaCpuFudge`, numa.h:62: minus `kCpuIdUnsupported` (percpu.h:94). -/
def kNumaCpuFudge : Nat := 2

/-- What `open_node_cpulist(node)` finds. -/
inductive Opened where
  | missing
  | error
  | file (f : File)

/-- `NumaBindMode`, numa.h:36-51. -/
inductive BindMode where
  | none | advisory | strict
  deriving DecidableEq, Repr

/-- The data members of `NumaTopology`, numa.h:147-177.  The second map is all zero until it is
copied. -/
structure Numa where
  partitionToNodes : Nat → Nat
  numaAware : Bool
  bindMode : BindMode
  numNodes : Nat
  cpuToScaled : Nat → Nat
  gated : Nat → Nat

def Numa.zero : Numa := ⟨fun _ => 0, false, .advisory, 1, fun _ => 0, fun _ => 0⟩

/-- `1 << node` as a 64-bit mask: from 32 on the shift is undefined; at 31 the `int` is negative
and is sign extended. -/
def shl1 (node : Nat) : Option Nat :=
  if node < 31 then some (2 ^ node) else if node = 31 then some (2 ^ 64 - 2 ^ 31) else none

def update (f : Nat → Nat) (i v : Nat) : Nat → Nat := fun x => if x = i then v else f x

/-- The assignment loop, numa.cc:146-150. -/
def assignCpus (m : Nat → Nat) (s : CpuSet) (v : Nat) : Nat → Nat :=
  (List.range kMaxCpus).foldl (fun m cpu => if s cpu then update m (cpu + kNumaCpuFudge) v else m) m

/-- The loop over the nodes, numa.cc:112-160: the members and `numa_aware`.  `none` is a failed
check, an undefined shift, or not enough fuel. -/
def nodeLoop (P scale : Nat) (opened : Nat → Opened) : Nat → Nat → Numa × Bool → Option (Numa × Bool)
  | 0, _, _ => none
  | fuel + 1, node, (t, aware) =>
    match opened node with
    | .missing => some ({ t with numNodes := node }, aware)
    | .error => none
    | .file f =>
      let partition := node % P
      (shl1 node).bind fun bit =>
        let t := { t with
          partitionToNodes :=
            update t.partitionToNodes partition (t.partitionToNodes partition ||| bit) }
        if partition = 0 then nodeLoop P scale opened fuel (node + 1) (t, aware)
        else
          (parsed f).bind fun s =>
            nodeLoop P scale opened fuel (node + 1)
              ({ t with cpuToScaled := assignCpus t.cpuToScaled s (partition * scale) },
                aware || s.nonempty)

/-- Reading `TCMALLOC_NUMA_AWARE`, numa.cc:74-98: whether awareness is wanted, and the binding.
`none` is the report of a bad value. -/
def readEnv (dflt : Bool) (e : Option Str) : Option (Bool × BindMode) :=
  match e with
  | none => some (dflt, .advisory)
  | some s =>
    if s == "no-binding".toList then some (true, .none)
    else if s == "advisory-binding".toList || s == "1".toList then some (true, .advisory)
    else if s == "strict-binding".toList then some (true, .strict)
    else if s == "0".toList then some (false, .advisory)
    else none

/-- `InitNumaTopology`, numa.cc:53-163, and `NumaTopology::Init`, numa.h:205-221, for
`NumPartitions > 1`.  `fast` is `IsFast()`, `dflt` is `default_want_numa_aware()`, `fuel` bounds the
number of nodes. -/
def numaInit (P scale : Nat) (fast dflt : Bool) (env : Option Str) (possible : File)
    (opened : Nat → Opened) (fuel : Nat) : Option Numa :=
  let t := { Numa.zero with partitionToNodes := update Numa.zero.partitionToNodes (0 % P) 1 }
  if fast then
    (readEnv dflt env).bind fun (enabled, mode) =>
      (numPossibleCPUs possible).bind fun num =>
        if num ≤ kMaxCpus then
          (nodeLoop P scale opened fuel 0 ({ t with bindMode := mode }, false)).map fun (t, aware) =>
            if enabled && aware then { t with numaAware := true, gated := t.cpuToScaled } else t
        else none
  else some t

/-- `GetCpuScaledPartition`, numa.h:257-260.  `cpu` may be −1 or −2. -/
def Numa.cpuScaled (t : Numa) (cpu : Int) : Nat := t.cpuToScaled (cpu + kNumaCpuFudge).toNat
/-- `GetCurrentScaledPartition`, numa.h:241-246, on the CPU with this number. -/
def Numa.currentScaled (t : Numa) (cpu : Int) : Nat := t.gated (cpu + kNumaCpuFudge).toNat

/-! ### L3 caches -/

/-- The data members of `CacheTopology`, cache_topology.h:52-54; an index is an 8-bit number. -/
structure Cache where
  cpuCount : Nat
  l3Count : Nat
  index : Nat → Nat

/-- The inner loop, cache_topology.cc:88-96: every other CPU of the list gets index `v`. -/
def shareLoop (v : Nat) : Nat → CpuSet → CpuSet × (Nat → Nat) → CpuSet × (Nat → Nat)
  | 0, _, x => x
  | fuel + 1, shared, (check, index) =>
    match shared.first with
    | none => (check, index)
    | some c => shareLoop v fuel (shared.clr c) (check.clr c, update index c v)

/-- The outer loop, cache_topology.cc:55-98. -/
def cacheLoop (opened : Nat → Opened) : Nat → CpuSet → Cache → Option Cache
  | 0, _, _ => none
  | fuel + 1, check, t =>
    match check.first with
    | none => some t
    | some cpu =>
      match opened cpu with
      | .missing => some t
      | .error => none
      | .file f =>
        (parsed f).bind fun shared =>
          let v := t.l3Count % 256
          let r := shareLoop v (kMaxCpus + 1) (shared.clr cpu) (check.clr cpu, update t.index cpu v)
          cacheLoop opened fuel r.1 { t with l3Count := t.l3Count + 1, index := r.2 }

/-- `CacheTopology::Init`, cache_topology.cc:42-99 (other than on aarch64).  `opened cpu` is the
file `cache/index3/shared_cpu_list` of that CPU. -/
def cacheInit (possible : File) (opened : Nat → Opened) : Option Cache :=
  match numPossibleCPUs possible with
  | none => some ⟨0, 1, fun _ => 0⟩
  | some n => cacheLoop opened (kMaxCpus + 1) (fun c => decide (c < n)) ⟨n, 0, fun _ => 0⟩

/-- `GetL3FromCpuId`, cache_topology.h:43-49, with its assertions. -/
def Cache.l3 (t : Cache) (cpu : Nat) : Option Nat :=
  if cpu < t.cpuCount ∧ t.index cpu < t.l3Count then some (t.index cpu) else none

end Verif.Topology
