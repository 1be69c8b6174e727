/-!
Model of the statistics of the whole allocator: `ExtractStats` and the sums formed from it (global_stats.cc:84-251), the
two ways to ask for them by name (`GetNumericProperty`, global_stats.cc:955-1185; `GetProperties`, tcmalloc.cc:419-516) and
`mallinfo2` (tcmalloc.cc:1147-1163).

A `Reading` is what the parts of the allocator answer when asked.  Numbers are natural numbers: no sum wraps around (all are
sums of sizes of memory the process has).  The ratio `generic.realized_fragmentation` is computed with floating point
numbers; it is an arbitrary function here.  `none` stands for a failed assertion.  Not modelled: the properties of
experiments (`Verif/Experiments`), the lists of small and large spans.
-/
namespace Verif.GlobalStats

/-- `BackingStats`, stats.h:40-50: bytes of a page heap. -/
structure Backing where
  system : Nat
  free : Nat
  unmapped : Nat
deriving DecidableEq, Repr

/-- `PageAllocator::stats`, page_allocator.h:300-313: the sum over the page heaps. -/
def Backing.total (l : List Backing) : Backing :=
  ⟨(l.map Backing.system).sum, (l.map Backing.free).sum, (l.map Backing.unmapped).sum⟩

/-- What is asked of the caches of one size class: `class_to_size`, `central_freelist(k).length()` and `OverheadBytes()`,
`transfer_cache().tc_length(k)`, `sharded_transfer_cache().TotalObjectsOfClass(k)`, `cpu_cache().TotalObjectsOfClass(k)`. -/
structure Class where
  size : Nat
  length : Int
  overhead : Nat
  tc : Nat
  sharded : Nat
  cpu : Nat

/-- `PageReleaseStats`, in bytes. -/
structure Released where
  total : Nat
  toSystem : Nat
  background : Nat
  soft : Nat
  hard : Nat

/-- Everything that is asked.  `perCpu`: per-CPU caches are in use (`UsePerCpuCache`).  `cpuBytes`:
`cpu_cache().TotalUsedBytes()`.  `cpuMeta`, `cpuMetaRes`: `MetadataMemoryUsage`. `frag`: see above. -/
structure Reading where
  classes : List Class
  threadBytes : Nat
  threadCount : Nat
  perCpu : Bool
  cpuBytes : Nat
  cpuMeta : Nat
  cpuMetaRes : Nat
  heaps : List Backing
  metadata : Nat
  pagemap : Nat
  pagemapRes : Nat
  arenaUnallocated : Nat
  arenaUnavailable : Nat
  arenaNonresident : Nat
  peakBacked : Nat
  peakSampled : Nat
  released : Released
  sampledFrag : Nat
  maxThread : Nat
  hardLimit : Nat
  softLimit : Nat
  hardHits : Nat
  softHits : Nat
  hardShrinks : Nat
  softShrinks : Nat
  partitioning : Nat
  frag : Nat → Nat → Nat

/-- `TCMallocStats`, global_stats.h:35-64 (the fields used for the sums below). -/
structure Stats where
  thread : Nat
  central : Nat
  transfer : Nat
  metadata : Nat
  sharded : Nat
  perCpu : Nat
  threadCount : Nat
  pageheap : Backing
  arenaUnallocated : Nat
  arenaUnavailable : Nat
  arenaNonresident : Nat
  peakBacked : Nat
  peakSampled : Nat
  released : Released

/-- The loop over the classes, global_stats.cc:97-121. -/
def centralBytes (l : List Class) : Nat := (l.map fun c => c.size * c.length.toNat + c.overhead).sum
def transferBytes (l : List Class) : Nat := (l.map fun c => c.size * c.tc).sum

/-- `ShardedTransferCacheManager::TotalBytes`, transfer_cache.h:167-180. -/
def shardedBytes (l : List Class) : Nat := (l.map fun c => c.sharded * c.size).sum

/-- The metadata bytes: as such, or with resident sizes for per-CPU slabs and page map, global_stats.cc:132, 159-189. -/
def metadataBytes (g : Reading) (residence : Bool) : Option Nat :=
  if residence then
    if g.perCpu then
      if g.metadata < g.cpuMeta then none
      else
        let m := g.metadata - g.cpuMeta + g.cpuMetaRes
        if m < g.pagemap then none else some (m - g.pagemap + g.pagemapRes)
    else if g.metadata < g.pagemap then none else some (g.metadata - g.pagemap + g.pagemapRes)
  else some g.metadata

/-- `ExtractStats`, global_stats.cc:91-190. -/
def extract (g : Reading) (residence : Bool) : Option Stats :=
  (metadataBytes g residence).map fun m =>
    { thread := g.threadBytes
      central := centralBytes g.classes
      transfer := transferBytes g.classes
      metadata := m
      sharded := if g.perCpu then shardedBytes g.classes else 0
      perCpu := if g.perCpu then g.cpuBytes else 0
      threadCount := g.threadCount
      pageheap := Backing.total g.heaps
      arenaUnallocated := g.arenaUnallocated
      arenaUnavailable := g.arenaUnavailable
      arenaNonresident := g.arenaNonresident
      peakBacked := g.peakBacked
      peakSampled := g.peakSampled
      released := g.released }

/-- `class_count`, global_stats.cc:107-115 and thread_cache.cc:410-424; `thread` is what `GetStats` adds. -/
def classCount (g : Reading) (c : Class) (thread : Nat) : Nat :=
  c.length.toNat + c.tc + c.sharded + (if g.perCpu then c.cpu else 0) + thread

/-- `StatSub`, global_stats.cc:199-201. -/
def statSub (a b : Nat) : Nat := if b ≤ a then a - b else 0

/-- `InUseByApp`, global_stats.cc:204-210. -/
def inUseByApp (s : Stats) : Nat :=
  statSub s.pageheap.system (s.thread + s.central + s.transfer + s.perCpu + s.sharded + s.pageheap.free + s.pageheap.unmapped)

/-- `VirtualMemoryUsed`, global_stats.cc:212-216. -/
def virtualMemoryUsed (s : Stats) : Nat :=
  s.pageheap.system + s.metadata + s.arenaUnallocated + s.arenaUnavailable + s.arenaNonresident

/-- `UnmappedBytes`, global_stats.cc:218-220. -/
def unmappedBytes (s : Stats) : Nat := s.pageheap.unmapped + s.arenaNonresident

/-- `PhysicalMemoryUsed`, global_stats.cc:222-224. -/
def physicalMemoryUsed (s : Stats) : Nat := statSub (virtualMemoryUsed s) (unmappedBytes s)

/-- `RequiredBytes`, global_stats.cc:228-230. -/
def requiredBytes (s : Stats) : Nat := statSub (physicalMemoryUsed s) s.pageheap.free

/-- `ExternalBytes`, global_stats.cc:232-237. -/
def externalBytes (s : Stats) : Nat :=
  s.pageheap.free + s.central + s.perCpu + s.sharded + s.transfer + s.thread + s.metadata + s.arenaUnavailable +
    s.arenaUnallocated

/-- `HeapSizeBytes`, `LocalBytes`, `SlackBytes`, global_stats.cc:239-250. -/
def heapSizeBytes (b : Backing) : Nat := statSub b.system b.unmapped
def localBytes (s : Stats) : Nat := s.thread + s.perCpu + s.sharded
def slackBytes (b : Backing) : Nat := b.free + b.unmapped

/-- `GetNumericProperty`, global_stats.cc:955-1185.  The inner `none`: there is no such property. -/
def numericProperty (g : Reading) (name : String) : Option (Option Nat) :=
  let st (r : Bool) (f : Stats → Nat) : Option (Option Nat) := (extract g r).map fun s => some (f s)
  let heap := Backing.total g.heaps
  if name = "tcmalloc.per_cpu_caches_active" then some (some g.perCpu.toNat)
  else if name = "generic.virtual_memory_used" then st false virtualMemoryUsed
  else if name = "generic.physical_memory_used" then st false physicalMemoryUsed
  else if name = "generic.current_allocated_bytes" ∨ name = "generic.bytes_in_use_by_app" then st false inUseByApp
  else if name = "generic.peak_memory_usage" then st false Stats.peakBacked
  else if name = "generic.realized_fragmentation" then st false fun s => g.frag s.peakBacked s.peakSampled
  else if name = "generic.heap_size" then some (some (heapSizeBytes heap))
  else if name = "tcmalloc.central_cache_free" then st false Stats.central
  else if name = "tcmalloc.cpu_free" then st false Stats.perCpu
  else if name = "tcmalloc.sharded_transfer_cache_free" then st false Stats.sharded
  else if name = "tcmalloc.slack_bytes" then some (some (slackBytes heap))
  else if name = "tcmalloc.pageheap_free_bytes" ∨ name = "tcmalloc.page_heap_free" then some (some heap.free)
  else if name = "tcmalloc.pageheap_unmapped_bytes" ∨ name = "tcmalloc.page_heap_unmapped" then
    some (some (heap.unmapped + g.arenaNonresident))
  else if name = "tcmalloc.sampled_internal_fragmentation" then some (some g.sampledFrag)
  else if name = "tcmalloc.max_total_thread_cache_bytes" then some (some g.maxThread)
  else if name = "tcmalloc.current_total_thread_cache_bytes" ∨ name = "tcmalloc.thread_cache_free" then st false Stats.thread
  else if name = "tcmalloc.thread_cache_count" then st false Stats.threadCount
  else if name = "tcmalloc.local_bytes" then st false localBytes
  else if name = "tcmalloc.external_fragmentation_bytes" then st false externalBytes
  else if name = "tcmalloc.metadata_bytes" then st true Stats.metadata
  else if name = "tcmalloc.transfer_cache_free" then st false Stats.transfer
  else if name = "tcmalloc.hard_usage_limit_bytes" then some (some g.hardLimit)
  else if name = "tcmalloc.desired_usage_limit_bytes" then some (some g.softLimit)
  else if name = "tcmalloc.soft_limit_hits" then some (some g.softHits)
  else if name = "tcmalloc.hard_limit_hits" then some (some g.hardHits)
  else if name = "tcmalloc.successful_shrinks_after_soft_limit_hit" then some (some g.softShrinks)
  else if name = "tcmalloc.successful_shrinks_after_hard_limit_hit" then some (some g.hardShrinks)
  else if name = "tcmalloc.num_released_total_bytes" then some (some g.released.total)
  else if name = "tcmalloc.num_released_release_memory_to_system_bytes" then some (some g.released.toSystem)
  else if name = "tcmalloc.num_released_process_background_actions_bytes" then some (some g.released.background)
  else if name = "tcmalloc.num_released_soft_limit_exceeded_bytes" then some (some g.released.soft)
  else if name = "tcmalloc.num_released_hard_limit_exceeded_bytes" then some (some g.released.hard)
  else if name = "tcmalloc.required_bytes" then st false requiredBytes
  else if name = "tcmalloc.security_partitioning_active" then some (some g.partitioning)
  else some none

/-- `MallocExtension_Internal_GetProperties`, tcmalloc.cc:419-516. -/
def properties (g : Reading) : Option (List (String × Nat)) :=
  (extract g true).map fun s =>
    [("generic.virtual_memory_used", virtualMemoryUsed s),
     ("generic.physical_memory_used", physicalMemoryUsed s),
     ("generic.current_allocated_bytes", inUseByApp s),
     ("generic.bytes_in_use_by_app", inUseByApp s),
     ("generic.heap_size", heapSizeBytes s.pageheap),
     ("generic.peak_memory_usage", s.peakSampled),
     ("generic.realized_fragmentation", g.frag s.peakBacked s.peakSampled),
     ("tcmalloc.page_heap_free", s.pageheap.free),
     ("tcmalloc.pageheap_free_bytes", s.pageheap.free),
     ("tcmalloc.metadata_bytes", s.metadata),
     ("tcmalloc.thread_cache_count", s.threadCount),
     ("tcmalloc.central_cache_free", s.central),
     ("tcmalloc.transfer_cache_free", s.transfer),
     ("tcmalloc.cpu_free", s.perCpu),
     ("tcmalloc.sharded_transfer_cache_free", s.sharded),
     ("tcmalloc.per_cpu_caches_active", g.perCpu.toNat),
     ("tcmalloc.current_total_thread_cache_bytes", s.thread),
     ("tcmalloc.thread_cache_free", s.thread),
     ("tcmalloc.local_bytes", localBytes s),
     ("tcmalloc.max_total_thread_cache_bytes", g.maxThread),
     ("tcmalloc.pageheap_unmapped_bytes", s.pageheap.unmapped),
     ("tcmalloc.page_heap_unmapped", s.pageheap.unmapped + s.arenaNonresident),
     ("tcmalloc.sampled_internal_fragmentation", g.sampledFrag),
     ("tcmalloc.external_fragmentation_bytes", externalBytes s),
     ("tcmalloc.required_bytes", requiredBytes s),
     ("tcmalloc.slack_bytes", slackBytes s.pageheap),
     ("tcmalloc.hard_usage_limit_bytes", g.hardLimit),
     ("tcmalloc.desired_usage_limit_bytes", g.softLimit),
     ("tcmalloc.soft_limit_hits", g.softHits),
     ("tcmalloc.hard_limit_hits", g.hardHits),
     ("tcmalloc.successful_shrinks_after_soft_limit_hit", g.softShrinks),
     ("tcmalloc.successful_shrinks_after_hard_limit_hit", g.hardShrinks),
     ("tcmalloc.num_released_total_bytes", s.released.total),
     ("tcmalloc.num_released_release_memory_to_system_bytes", s.released.toSystem),
     ("tcmalloc.num_released_process_background_actions_bytes", s.released.background),
     ("tcmalloc.num_released_soft_limit_exceeded_bytes", s.released.soft),
     ("tcmalloc.num_released_hard_limit_exceeded_bytes", s.released.hard),
     ("tcmalloc.security_partitioning_active", g.partitioning)]

/-- `do_mallinfo2`, tcmalloc.cc:1147-1163: `arena`, `fsmblks`, `fordblks`, `uordblks` (the other fields are 0). -/
structure MallInfo where
  arena : Nat
  fsmblks : Nat
  fordblks : Nat
  uordblks : Nat
deriving DecidableEq, Repr

def mallinfo2 (g : Reading) : Option MallInfo :=
  (extract g false).map fun s =>
    ⟨s.pageheap.system, s.thread + s.central + s.transfer, s.pageheap.free + s.pageheap.unmapped, inUseByApp s⟩

end Verif.GlobalStats
