# Formal model of google/tcmalloc in Lean 4

`/repo` is read as text only; nothing there is built or run.  The model lives in
`lean/Verif/`, one directory per component.  Each component directory has

* `Model.lean`  – executable definitions transcribing the C++ function by function,
  each with a comment citing file and lines;
* `Spec.lean`   – (where the property needs vocabulary) a small specification that does
  not mention the model's helpers;
* `Lemmas.lean` / `Proof*.lean` – helper lemmas;
* `Props.lean`  – the property theorems listed in `MANIFEST.json`, with `example`s showing
  that the hypotheses are met by concrete non-trivial states.

## Trusted base

* Lean 4.33.0's kernel and the three standard axioms `propext`, `Classical.choice`,
  `Quot.sound` (no others; no `native_decide`, `bv_decide`, `sorry`).
* The transcription from C++ to Lean, which is by hand.  Every definition cites the lines
  it models and names its simplifications.
* Memory-model simplification: shared state is modelled at the granularity of critical
  sections (locks), single atomics, and – for the per-CPU slab – single instructions of the
  restartable sequences under sequential consistency.  Weak-memory reorderings are not modelled.

## Conventions

* Machine integers: `Nat` with explicit bounds where wrap-around cannot happen (the bound is
  a hypothesis or proved), `BitVec`/`% 2^64` where wrap-around matters.
* `TC_CHECK`/`TC_ASSERT` failures and undefined behaviour are a distinct outcome
  (`none`/`Except.error`), never a silent default.
* Kernel answers (mmap, madvise, clock, random draws) are inputs of the step functions, so
  theorems quantify over all of them.

## Plan per property

| id | modelled as | proof |
|----|-------------|-------|
| C01 | composed state machine: live set, per-CPU caches, transfer cache, central list, spans, page heap | global conservation invariant (every object address is in exactly one place) by induction on the history |
| C02–C06 | `SizeMap`: `ClassIndexMaybe`, `Init`, `GetSizeClass` over an arbitrary valid table; all shipped tables transcribed | loop invariants of `Init`; kernel evaluation over the finite tables lifted to all sizes by the general theorem |
| C07–C10 | `Frontend`: entry points over 64-bit arithmetic with an abstract allocator answer | case analysis, arithmetic |
| C11 | `PageMap`: three-level radix tree | refinement to a partial function from page numbers |
| C12 | `RangeTracker`, `Bitmap` | refinement to sets of free runs |
| C13–C14 | `PageTracker` | invariant by induction |
| C15–C16 | `Filler` | invariant: counters = sums over trackers |
| C17 | `HugeAddressMap`: the treap as an inductive tree with priorities and cached maxima | BST/heap/max invariants, refinement to a set of hugepages |
| C18 | `HugeAllocator` | conservation invariant |
| C19 | `HugeCache` | conservation invariant, failure branches explicit |
| C20 | `HugeRegion` | invariant by induction |
| C21–C22 | `HPAA`: composition | ownership invariant |
| C23–C24 | `Span`: list encoding on an explicit memory, bitmap encoding, reciprocal division | representation invariant (multiset of free objects) |
| C25 | `CentralFreeList` | conservation |
| C26 | `TransferCache` and its manager | conservation and capacity invariants |
| C27 | `Slab`: threads × CPUs × instruction-level program counters | inductive invariant over all interleavings |
| C28–C29 | `CpuCache` | conservation invariant |
| C30 | `ThreadCache` | invariant |
| C31 | `Arena` | invariant |
| C32–C33 | `PageAllocator` limits and release | decision logic |
| C34 | `Guarded` | invariant, arithmetic |
| C50 | `Guarded` | invariant; reports from the metadata of the nearest slot |
| C51 | `Guarded` | decision logic |
| C52 | `StackFilter` | balance invariant over all interleavings |
| C53 | `SystemAlloc`: `Release` | arithmetic, decision logic |
| C35 | `Sampler` | arithmetic over sequences |
| C36–C37 | `MemoryTag`, `SystemAlloc` | arithmetic, invariant |
| C38–C39 | `LinkedList`, `HintedLists` | refinement to lists |
| C40 | `TimeSeries` | refinement to window of history |
| C54 | `TimeSeries` | invariant with a ghost mark per epoch |
| C55 | `Heap`: the composition | counting invariants of the parts, joined |
| C56 | `HookList` | invariant over all interleavings of loads and stores; counting in the trace |
| C57 | Recorder | Interleaving model of the lock-free sample list and the graveyard. Invariant: `all_` is a chain, the graveyard a cycle through a subset of it, each iteration has a visited and a remaining part. Specification by folds over the trace of calls and results. |
| C58 | Lifetime | State machine of the profiler list and the order of the sampled path's reports, specification by functions of the history; invariant that a running profile's tables are those functions; exact statistics by induction over the calls of `AddTrace`. |
| C59 | Lifetime | Refuted: inequality for every sequence of lifetimes by induction, a concrete history; partial theorem for equal lifetimes. |
| C60 | Residency | byte-by-byte specification; induction over batches and pages; bitmaps through the verified `Bitmap` and `Scale` |
| C61 | Residency | the same, with the invariant that the remembered head page speaks for the next tail page |
| C62 | StatsText | invariant over the calls on a printer relating the buffer to the text so far; then the report functions on top |
| C63 | Experiments | the parser's tokens are exactly the comma-separated items; then the entry of one experiment is followed through the selection |
| C64 | Topology | exact result of the buffered parser for every list and every chunking (induction over the pieces of the text); termination and range for every text (decreasing measure) |
| C65 | Topology | invariant over the node loop; invariant over the cache loop (CPUs already covered, leaders counted) |
| C66 | Sampling | Each atomic counter update is a step; the invariant says what every call in flight has added so far; at rest nothing is in flight. |
| C67 | Sampling | Invariant between each profile's table and the samples since its start, read off the trace of events; exact rational rounding of entries. |
| C68 | Sampling | Refuted by two interleavings; invariant over histories whose sampled calls do not overlap; genuineness and mutual exclusion for all. |
| C69 | ProfileProto | model of the profile builder (interning tables, merge, labels); a separate reader `read` decodes the message by its own tables; round-trip theorem for every profile and every visiting order |
| C70 | ProfileProto | the same for lifetime profiles and event traces; invariant of the builder gives the soundness of the tables, and the segment of each location |
| C71 | ProfileProto/BuildId | model of `GetBuildId` with 32-bit arithmetic over segments of any contents; safety and termination for all of them, exact answer for encoded notes (round trip) |
| C72 | GlobalStats, Heap/Stats, ThreadHeap/Stats | `ExtractStats` read in the states of the composed heaps; sums over classes and tags of the conservation theorems C22, C25, C26, C28, C30, C55 |
| C73 | GlobalStats | decision logic of `GetNumericProperty` and `GetProperties` stated outright for every reading; refuted for six names |
| C74 | SysFiles/Status | the buffered line reader; refinement to a reader of single characters, then round trip with the kernel's line format, for every cutting into reads |
| C75 | Treatment | selection as a fold over the filler's lists; invariant: the chosen are the best of those seen, with the standard's laws of heaps as hypotheses and a lawful implementation as witness |
| C76 | Treatment | one round as a loop over arbitrary observations, equal to a declarative list of attempts; back-off as a state machine, invariants over histories; the filler's transitions during a collapse preserve that nothing of the hugepage is released |
| C77 | ZeroBytes | the loop over runs of resident pages, invariant: the bytes so far are a prefix of the resident bytes; batches of copies; the ratio over rationals with an abstract rounding; composed with the residency reader (C60); refuted in part |
| C78 | SafeIo | invariant over the list of kernel answers: buffer = prefix of the file ++ old contents; termination bound |
| C79 | SafeIo | refuted by witnesses; _partial theorems for one-piece writes and uninterrupted closes |
| C80 | Background | induction over passes; each clock equals the time of the last run read off the history |
| C81 | Background | interval bounds on rounded rational arithmetic; refuted at the extremes by witnesses for every rounding |
| C82 | Process on Heap, Guarded; ThreadProcess on ThreadHeap, Guarded | frame of every step: a word that changes is in a span, a block, a range being released or a range just obtained, all of which are in memory handed out (invariant of C01); lifted to histories; the guarded region is memory that was not mapped |
| C83 | Settings | Threads interleave at the grain of single stores, with the once flags of first access and the allocator's start-up as steps; invariant relating every stored word to what the history says it should be; refutations by runs |
| C84 | Signals | simulation between the process with the handler and one without it, over all interleavings; reports from the Guarded invariant; refutations by concrete runs |
| C85 | PageAllocator (Counters) | what one check counts, then induction over lives of a process; refutation of the assertion by a concrete life |
| C86 | Frontend (Checks) | one lookup decides both where a sized free goes and what the check says, so the routing of sized frees (C42) gives the verdict; alignment by an invariant over histories; refutations by concrete histories |
| C87 | Reports | the record as a state, each report as a step; the accessors' answers compared with a specification that names no field; induction over sequences of reports; refutations by two reports in a row |
| C88 | Environ | the lookup byte by byte, reads outside a string undefined; induction over names and entries against a specification in terms of `NAME=value`; three switches as decision logic on top |
| C41 | `Bitmap`: word arrays | refinement to sets |
| C42–C43 | `Frontend`: realloc, sized free, sampled-block checks | history invariant; case analysis |
| C44 | `PageMap`: span enumeration over the radix tree | induction over the scan; counterexample for stale entries |

Not expressible in the model: timing, contention and cache behaviour; hardware weak memory;
the randomness quality of sampling; contents of printed statistics.

## Where the code and the property disagree

Each of these is proved as a theorem about the model (negation with a witness), next to the part of the
property that does hold.

* **C42** – `realloc` of an over-aligned page-heap block can keep it in place (a fresh block would have the
  same usable size); `free_sized` with the new size then computes a small size class and pushes a
  page-heap block onto a small-object list (`realloc_then_sized_free_misroutes`; in debug builds
  `TC_ASSERT(CorrectSize)` at tcmalloc.cc:1631 fires).
* **C09** – `pvalloc(size)` with `size > SIZE_MAX - page` wraps to 0 and succeeds (`pvalloc_wraps`);
  power-of-two alignments above 2 MiB abort the process (`alignedAlloc_huge_alignment_aborts`).
* **C10** – `nallocx(0, lg)` with an alignment above the page size answers 0, while the block has a page
  (`nallocx_zero_overaligned`).
* **C43** – sampled *large* blocks keep a normal tag, so a sized free with a wrong *small* size is not
  detected; the property is stated for small sampled blocks.
* **C44** – freeing a multi-page span resets only its first page's entry (`ClearSpan`) and the class array;
  inner pages keep the descriptor pointer and the packed class, and the deleted descriptor keeps its range
  until reused. The allocated-range listing then reports the freed span (`freed_span_still_listed`).

## What is modelled, component by component

* `SizeMap` – sizemap.h/.cc whole (`ClassIndexMaybe`, `GetSizeClass`, `SetSizeClasses`, `Init`,
  `ValidSizeClasses`), all shipped tables. Not modelled: runtime overrides by environment/weak symbols.
* `Bitmap`, `RangeTracker` – internal/range_tracker.h whole, on 64-bit words.
* `MemoryTag` – internal/memory_tag.h, the pointer tests of the free fast paths.
* `Frontend` – tcmalloc.cc, tcmalloc_policy.h, allocation_sampling.h, internal/overflow.h: every allocation
  and deallocation entry point's decisions. Caches, page heap and guarded pages are inputs constrained by the
  contract `Ans.OK`. Not modelled: hooks, statistics, the sampler, `malloc_info`/MallocExtension.
* `Span` – span.h/.cc: both free-list encodings on explicit object memory, both push overloads, both builds,
  build/pop/push/empty, the reciprocal arithmetic, page count and sampling fields. Not modelled: allocation
  time, donation flag, statistics, the double-free report of debug builds.
* `PageMap` – pagemap.h (`PageMap3`, all accessors, `Ensure` with failing metadata allocation,
  `get_next_set_page`, `GetAllocatedSpans`), pagemap.cc register/unregister. Not modelled: the two-level map
  of 32-bit builds (pagemap.h has only `PageMap3`), `MapRootWithSmallPages` (an madvise call).
* `HugeAddressMap` – huge_address_map.h/.cc whole: the treap with priorities from the code's own generator,
  `longest` augmentation, insert with two- and three-way merging, split/meld, predecessor, iteration. Nodes are
  named by their start address instead of by pointer.
* `HugeAllocator` – huge_allocator.h/.cc `Find`, `Get`, `Release`, `Contains`, counters. The system allocator is
  an input constrained by `SysOK`. Not modelled: printing, span statistics.
* `HugeCache` – huge_cache.h/.cc `Get`, `Release`, `ReleaseUnbacked`, `ReleaseCachedPages`, `ShrinkCache`, limit
  changes. Calls are split where `unback_` drops the lock, so every interleaving is covered. Clock and min/max
  tracker readings are arbitrary inputs. Not modelled: hit/miss statistics, printing.
* `PageTracker` – huge_page_tracker.h `PageTracker`: `Get`, `Put`, `ReleaseFree`, `MarkSubreleased`, the loop of
  `AddSpanStats`. The kernel's answers are arbitrary. Not modelled: residency and treatment queries, collapse.
* `LinkedList` – internal/linked_list.h whole: `LinkedList` and `TList` on explicit pointer memory, with the debug
  ownership checks.
* `HintedLists` – hinted_tracker_lists.h whole; the intrusive lists are sequences (justified by `LinkedList`).
- **Hugepage filler** (`Filler/`, C15, C16, part of C13): `HugePageFiller` of huge_page_filler.h with its seven arrays
  of tracker lists (the verified `HintedLists`) and trackers (the verified `PageTracker`), `TryGet`, `Put` (split at
  `unback_without_lock_`), `Contribute`, `FetchFullyFreedTracker`, `ReleasePages`/`ReleaseCandidates`/`SelectCandidates`,
  `TreatHugepageTrackers` (split where the lock is dropped) with the two treatments of huge_page_treatment.h, and the
  statistics. `Reach` is every history; `K` the invariant. Not modelled: lifetimes, tagging, histograms, clocks,
  skip-subrelease (its result is an arbitrary target), which trackers a treatment selects (arbitrary).
  Findings: if the kernel refuses the rest of a partially released hugepage on `Put`, the tracker still says released,
  so the page heap files a partly backed hugepage as unbacked (statistics only). Treatment pins are bits, not counts,
  so two treatments at a time would be wrong; background.cc:104-105 serialises them.
- **Hugepage regions** (`HugeRegion/`, C20, part of C13): `HugeRegion` and `HugeRegionSet` of huge_region.h whole except
  printing, `GetPageAllocationStatus`/`CopyBits` and VMA names. `unback_` keeps the page-heap lock, so each operation is
  one step; the kernel may refuse any call. The floating-point tenth in `ReleasePages` is an arbitrary number.
  Finding: the comment at huge_region.h:192-197 says an adaptive release is capped by the desired amount; the code does
  not cap it unless the limit was hit (`releasePages_exact` states what is released).
- **Page heap** (`PageHeap/`, C21, C22, C13): `HugePageAwareAllocator` of huge_page_aware_allocator.h: `New`, `NewAligned`,
  `AllocSmall`/`AllocLarge`/`AllocEnormous`/`AllocRawHugepages`, `RefillFiller` (split at `ShrinkToUsageLimit`), `AddRegion`,
  `Delete` with its three cases (split at `filler_.Put`), `ReleaseHugepage`, the releases, `TreatHugepageTrackers` (split
  where the lock is dropped), `stats()` and `GetPageAllocationStatus`, built from the verified cache, filler and regions.
  `Reach` is every history under any interleaving of the calls that wait; `K` the invariant (one owner per hugepage). The
  choice between a new region and raw hugepages, the fractions of the release policy and clocks are arbitrary inputs.
  Not modelled: histograms, lifetimes, VMA names, `Back`, span objects.
  Finding: `GetPageAllocationStatus` reports every page of a hugepage in the hand of a waiting call (and of memory the page
  heap never had) as allocated; `pageStatus_exact` states this.
- **Central free list** (`CentralFreeList/`, C25): `CentralFreeList` of central_freelist.h/.cc (default, non-legacy locking):
  `InsertRange` (with `RecordSameSpanRuns` and the shared array of freed spans), `RemoveRange`, `Populate`, `IndexFor`, the
  statistics, over the verified word-accurate spans (`Span`) and `HintedLists`. Each locked section is one step; a call that
  waits for the page heap is split, so any number of callers interleave. `Reach` is every history, with arbitrary user writes to
  the objects that are out. Not modelled: lifetime and batch-shape histograms, hooks, the legacy-locking build.
  Finding: objects in the batch of a call waiting for the page heap still count as free in `length()` (`stats_exact`).
- **Transfer cache** (`TransferCache/`, C26): `TransferCache` of transfer_cache_internals.h with the shards of
  transfer_cache.h, on top of the central free list model itself (`World.x`): `InsertRange`, `RemoveRange`, `TryPlunder`
  (split wherever it drops the lock), `ShrinkCache`, `IncreaseCacheCapacity`, `CapacityNeeded`, and the resizing pass
  `ResizeCaches` over all classes. Batches between two layers are in flight and may be overtaken. Unlocked reads are arbitrary
  Booleans. Not modelled: which classes `ResizeCaches` is given and what misses they had (arbitrary), printing, counters of misses.
  Finding: resizing trades one batch for one batch, and batches of different classes differ in bytes, so the byte budget is not
  kept (`resize_bytes_grow`); C26 originally claimed it was and has been corrected.
- **Per-CPU slabs** (`Slab/`, C27): `TcmallocSlab` of internal/percpu_tcmalloc.h, the restartable sequences of
  percpu_rseq_x86_64.S, the fences of percpu.cc and the lock/stop/populate/drain/resize protocol of cpu_cache.h. Every load and
  store of a sequence is a step; threads may be preempted, migrated, signalled or fenced between any two steps. `InitSlabs` and
  `InitCpuImpl` are one step each (they touch memory nobody else uses: `exclusive`). `Reach` is every schedule. Trusted: the
  kernel's rseq contract (a preempted, signalled or fenced thread restarts its sequence and its cached pointer is cleared; one
  thread per CPU) and sequentially consistent memory. Layout arithmetic is 16-bit, with the capacities required to fit (`Fits`).
  Findings, none reachable in the shipped configuration: a region filled to exactly 65536 words would wrap the 16-bit `end`;
  `ResizeCpuSizeClasses` and stealing test `HasPopulated` before taking the lock, which is safe only because the operations on all
  CPUs run on the same background thread (background.cc:104-105); `Pop` on a CPU never populated would read the word before
  the region (excluded because `CacheCpuSlab` populates first; `step_defined` proves it).
- **Per-CPU caches** (`CpuCache/`, C28, C29, C45): `CpuCache` of cpu_cache.h on top of the slab model itself (`W.s`): allocation
  and deallocation with their slow paths, `Refill`, the overflow loop, `UpdateCapacity`/`Grow`, `Drain`, `ResizeCpuSizeClasses`,
  `StealFromOtherCache`, `ResizeSlabs`, `ReleaseSlabMetadataForDrainedCpus`. A step of a thread is one step of a slab operation,
  one atomic access to `available` or `capacity`, or one call of the backing cache; all threads interleave. What the backing cache
  answers and all choices made from miss statistics or unlocked reads are arbitrary (`Ch`). Ghost fields record what a refill or
  an overflow moved; `fetched_recorded`, `refill_recorded`, `overflow_recorded` tie them to what the layer below gave and got and
  to the contents of the slab. Assumed: only the background thread steals (cpu_cache.h, background.cc). Not modelled: statistics,
  hooks (other than that they may uncache the slab pointer), `SetCacheLimit` after activation (it does not change budgets,
  TODO(b/179516472), so the budget is the limit at activation).
  Finding (C45): `ReleaseSlabMetadataForDrainedCpus` checks `TC_CHECK_EQ(available, capacity)` for the CPUs it unpopulates. A
  thread in `Grow` that has taken bytes from `available` and has not yet given them to a class or put them back makes the check
  fail, although the CPU is drained: `release_check_fails` is a reachable state, `release_check_partial` the condition under which
  it cannot happen. The flag release_drained_slab_metadata is off by default.
- **Per-thread caches (ThreadCache/, C30, C46)**: free lists with low-water marks and dynamic maximum lengths, fetch,
  release in batches, scavenging, stealing of limits, creation and deletion of caches, change of the overall limit. State
  machine of any number of caches with their owners' calls in flight; the transfer cache is the environment. Proved by one
  invariant over all events; statements in Props. The sign trick of the fast path of `Deallocate` is proved on 64-bit words
  (`headroom_trick`). The product with a floating-point ratio in `RecomputePerThreadCacheSize` is an arbitrary smaller
  limit. Findings: `SetMaxTotalThreadCacheBytes` takes a signed value and converts it to an unsigned one; -1 makes the
  unclaimed space negative while no cache exists, and the next thread that allocates fails an assertion, or without
  assertions reads through a null pointer (`negative_limit_fails`, C46). Setting a small limit and then a large one
  repeatedly scales all limits down each time and never up.
- **Metadata arena (Arena/, C31).** `Arena::Alloc` with its per-size free lists of left-over tails, and one
  `MetadataObjectAllocator` on top, with the free-list headers and links held in the words of the memory itself, so that
  a client that writes through what it was given could corrupt them: the invariant proves it cannot. The environment is
  the system allocator (any block of the requested size that is disjoint from everything obtained before) and the
  clients (write anything anywhere inside what they hold). The invariant gives disjointness, alignment, containment,
  the exact accounting `allocated + unallocated + unavailable = obtained`, the reuse of deleted objects and the
  preservation of what clients wrote. Findings: `blocks_` is a `uint16_t` and wraps after 65535 blocks (statistics
  only); alignment padding is counted as allocated; `Alloc(0)` on a fresh arena would return a null pointer (no caller
  does it, so sizes are taken to be positive).
- **Memory limits and release requests (PageAllocator/, C32, C33, C47-C49).**  `Model.lean` models `PageAllocator`'s
  `ShrinkToUsageLimit`, `ShrinkHardBy`, `ReleaseAtLeastNPages`, `set_limit`, `ConstantRatePageAllocatorReleaser::Release` and
  `do_malloc_trim` over an abstract set of heaps (`Env`) and instantiates it with the composed page heaps (`PageHeap/`): `World` has one
  `HP` per heap, the limits, the metadata bytes and a script of the choices made outside the code (kernel answers, clock readings,
  settings).  `Heap.lean` runs one heap's release calls to their end.  Simplification: while the cache talks to the kernel
  the page-heap lock is dropped; here nothing else happens in between (`PageHeap/` has the interleaved version).  Theorems: the asks made
  and their order (`Attempt`), conservation of backed pages + credit, what is left when a release falls short, when the process is aborted.
  Findings, each with a witness theorem in `Story.lean`: (a) pages the filler returned when a partially released hugepage was freed
  (`unmapping_unaccounted_`) are credited to the next release, so a limit check can succeed while the usage stays over the hard limit
  (`limit_not_kept`) and a release reports pages it did not return (`release_not_exact`); (b) `ReleaseMemoryToSystem` forgets the surplus
  of an earlier call as soon as a request is covered by it: line 315's update is always overwritten at 338 or 345 (`surplus_lost`);
  (c) with `hpaa_subrelease` off and only a hard limit, hugepages are broken all the same, because `set_limit` lowers the soft
  limit and the soft phase breaks them (`hugepages_broken_though_off`), contrary to the comment at page_allocator.cc:167-170; (d)
  `malloc_trim` always returns 0 (`trim_returns_zero`); (e) a release request may leave free hugepages of regions behind
  (`release_leaves_region`); (f) cpu_cache.h:144 passes a byte count where `ShrinkToUsageLimit` takes pages: only the recorded
  peak of sampled application bytes is affected; (g) raising the hard limit does not restore a soft limit it had lowered (`set_limit`).
- **Guarded page allocator (Guarded/, C34, C50, C51).** The reservation and the return of a slot happen under the lock; everything
  else of `Allocate` and `Deallocate` does not, so each call is split there and any number of calls may be in progress. The state has
  the bitmap of used slots (the verified `Bitmap`), the slots' metadata, the accessibility of each page and the bytes. Invariant: the
  multiset of slots owned by calls and objects is the bitmap, objects are placed as promised, pages are accessible exactly while an
  object with bytes is there, the bytes behind right-aligned objects are intact. Around it: the arithmetic of slots and addresses (a
  slot is found for every address of the region and no other page is nearer), the error reports, and the decision in `TrySample`.
  Assumptions: the page size is a power of two ≥ 16, `mprotect` to take access away succeeds, the filter's answer is
  arbitrary. Not modelled: stack traces, the crash handler's printing, the busy-wait in `ForceTouchPage`. Findings: the checked bytes
  in slot 0 are zero, so that zero bytes written behind an object there go unnoticed (`zero_overflow_missed`).
- **Stack-trace filter (StackFilter/, C52).** Every atomic operation is a step; calls are interleaved arbitrarily. Balance invariant for
  each counter modulo 2^16. Finding: while another addition of the same stack is in progress a stack that is present may be missed,
  because its entry in the ring can be decayed before its counters were incremented (`transient_miss`); harmless for its only user.
- **Sampler (Sampler/, C35).** Refinement to a stream of bytes with one marked byte ahead (Spec.lean), over every sequence of
  allocations, interval settings and draws. The random number generator and its floating point are not modelled: a draw is an
  arbitrary `ssize_t` ≥ 0. Limits found: the refinement needs sizes below 2^63 and intervals that are not negative.
  `first_huge_request_stops_sampling`: a thread whose first allocation is an impossible `malloc(2^63 + d)` is never sampled
  afterwards (the counter wraps to almost 2^63). `negative_interval_weight`: after an interval of -100 a sample can get a weight of
  2^64 - 100. `signed_overflow`: one size above 2^63 overflows a signed addition. `max_request_not_counted`: `malloc(SIZE_MAX)` is
  not counted. All of these need requests that cannot succeed, or a negative interval setting. `TC_ASSERT_NE(seed, 0)` in
  `Init` is about a hash value and not modelled.
- **SystemAlloc** (system_allocator.h) models `Allocate`, `AllocateFromRegion`, `MmapRegion::Alloc`, `MmapAlignedLocked` with its loop
  of up to 1000 attempts, `RandomMmapHint`, `SetRegionFactory`, and `Release`/`ReleasePages`. The kernel is the environment: all
  answers of `mmap`, `mprotect`, `madvise` and `munlock`, and the pseudo-random numbers, are quantified over; assumed is only
  (`EnvOK`) that what `mmap` returns was not mapped before, that `MAP_FIXED_NOREPLACE` means what it says, and that the loop looking
  for a nonzero hint ends. Factories installed by the program are assumed to keep the contract of malloc_extension.h (`CustOK`).
  `allocate_ok`, `mmapAligned_ok`, `returned_disjoint` are C37; `allocate_succeeds` shows failures only come from the kernel.
  `arena_assumption` and `huge_assumption` discharge the assumptions `Arena.SysOK` and `HugeAllocator.SysOK` of the two
  components above. Findings: `documented_bound_too_large`: the comment on `MmapAligned` allows sizes up to 28 TiB, but ranges
  above 4 TiB leave the part of the tag. `leak_if_unprotect_fails`: a large mapping whose `mprotect` fails is never
  given back. NUMA builds have a single entry in `sampled_region_`, so a request with `kSampledP1` would index outside it:
  excluded by `Cfg.supports` (callers never make it there). Not modelled: names, NUMA binding, `MADV_NOHUGEPAGE`, errno, statistics.
- **`TimeSeries` (C40, C54).** `TimeSeriesTracker` with its 128-bit division of the clock, `MinMaxTracker`, `SubreleaseStatsTracker`,
  `GetDesiredSubreleasePages` and `SkippedSubreleaseCorrectnessTracker`. The specification is the log of reports with their epoch
  (time / length), forgotten when the clock goes back, and windows of it; the ring of slots is related to the log grouped by epoch
  (`Inv`), and the extremes, the peak, the trend, the demand and the smallest numbers of free pages are those of the window
  (`max_exact`, `min_exact`, `peak_exact`, `trend_exact`, `demand_exact`, `min_free_exact`), for intervals of at most as many
  epochs as slots. `requirement_covers_usage` and `decision_exact` say what is done with them. C54: `never_confirmed_twice`
  (`filler_never_confirmed_twice`) for any readings of the clock. Findings: `power_of_two_epoch`: if an epoch is a power of two
  in ticks, the constant of the division is truncated to 1 and it is always epoch 0, so C40 holds only for `GoodTicks`;
  windows end at the last update of the clock, not at the present; `stale_peak_loses_decision`: `last_confirmed_peak_` is not
  reset when a skipped release enters a new epoch, so that a decision can be lost (neither correct nor pending). Not modelled: printing;
  doubles (the quotient of durations is exact); negative durations.
- **Heap** (C01, C13, C55): `Verif/Heap` composes `CpuCache` (on `Slab`), for every class a `TransferCache` (on
  `CentralFreeList` on `Span`), for every memory tag a `PageHeap` (on filler, cache, regions, allocator) over one memory. The
  parts are those models unchanged; a step of one part is a step of the machine, so the lock regions of all parts interleave
  freely. Calls that cross parts (`RemoveRange` ending in `Populate`, return of emptied spans) are split where the code drops
  the lock. Invariants: each part is in a state its own theorems are about (`Reach` of the part); the objects a transfer
  cache considers out are exactly those in the per-CPU caches; the spans of the central free lists, spans on their way
  and users' runs are together exactly the runs the page heaps consider out (`led`). Environment (`Pre`): users free what they
  have and write to their own blocks only; the kernel gives new memory and takes away only what it is told. Not in the
  composition: the page map (C11), guarded pages (C34), sampling (users in between own the runs).
- **Joint system** (`Heap/Bridge.lean`, C01, C02): the entry points of `Frontend` on the composed heap. An answer is a block the heap
  has handed out (`Placed`); `placed_ok` proves the back-end contract `Ans.OK` for it, and `JReach.refines` shows that a joint history
  is a history of both parts, with one memory. `user_blocks_disjoint`, `user_block_size` and `user_bytes_kept` are then about users'
  blocks, with no contract left. Assumed: the system gives the page heap of a tag memory with this tag (`SysTag`, C36/C37).
  `ThreadHeap/Bridge.lean` states and proves the same for the heap with per-thread caches in front.
  Not in the joint systems: guarded pages; `calloc` and `realloc` as calls of their own (they are the steps in a row).
- **HookList** (C56): `HookList` of hook_list.h, behind `MallocHook`. Holders of the lock store in one or two steps, readers load
  slot by slot; memory is sequentially consistent. `invoke_exact` counts calls in the trace only (adds and removes that have
  returned true). Finding: `moved_hook_missed`: `Add(v)`, `Remove(v)` during an `Invoke` can hide a hook that is in the list all
  the time, since the second copy may be behind the end that was read. Not modelled: `InitialNewHook` and its initializers.
- **Recorder** (`SampleRecorder`, behind heap profiles and the peak-heap profile). Modelled: `Register` (`PopDead`, `New`, `PushNew` with load, compare-exchange and spurious failure), `Unregister` (`PushDead`: callback, then the locked region), `SetDisposeCallback`, `Iterate`, `UnregisterAll`; any number of threads. A region under a sample's lock is one step. Memory is sequentially consistent. Assumed: callers follow the header (unregister what is registered, once, not during `UnregisterAll`) and `New` hands out new memory (C31). Not modelled: the contents of a sample beyond one number, the destructor, `StackTraceTable`'s copy of a profile.
- **Lifetime** (C58, C59): `DeallocationProfiler`, its list and its table, and the order of `ReportMalloc`, `Register`, `Unregister`, `ReportFree` in the sampled path. The list's
  lock makes each report one step; starting a profile is two (`Iterate` of the recorder runs under the lock, but registrations do not take it), with the contract of C57 for what it lists. Doubles are exact rationals. Findings:
  `deviation_low`/`deviation_wrong`: the running variance is not Welford's (deallocation_profiler.cc:680-682), so the standard deviation shown is too small whenever two lifetimes differ, by a factor of at
  least the square root of two; `in_flight_missed`; `seeded_match_wrong`. Not modelled: the sampling weight (entries are merged ignoring it), `requested_size` and the like beyond one number, the zero-size guarded allocation that an event trace shows like a deallocation.
- **Residency** (`Verif/Residency`): `ResidencyPageMap::Get`/`GetUnbackedAndSwappedBitmaps`, `MInCore::residence_impl`,
  `PageFlags::Get`/`GetSinglePageBitmaps`/`IsHugepageBacked` and the scaling the hugepage treatment applies to their bitmaps.
  Files are functions from page number to a 64-bit entry, read through a descriptor with a position; each system call may
  fail; buffers have their real length and an overrun or a read of an unwritten element is a distinct outcome. Simplified:
  addresses do not wrap, `& ~(P - 1)` is a division, the tables do not change during a call, and
  `MaybeReadStaleScanSeconds` is an input. Limitation proved: with compound pages smaller than a hugepage the code takes the
  flags of the wrong page (`small_compound_wrong`); pageflags.h:145-147 says it assumes otherwise. The failure status of
  the two bitmap queries is ignored by the treatment, which then sees empty bitmaps (no page unbacked).
- **StatsText** (`lean/Verif/StatsText`): `Printer` (internal/logging.h) and the functions that report statistics as text
  through it (tcmalloc.cc:197-278): `GetStatsInPbtxt`, `GetStats` with its two attempts, `malloc_stats`. The statistics
  themselves (the sequence of `printf`/`Append` calls) are arbitrary; `SNPrintF` is modelled by its contract, with the
  conversion of its result to `int`; the buffer has its real length and a store outside it is a distinct outcome. The region
  factory is any function that keeps the contract documented in malloc_extension.h. Not modelled: `PbtxtRegion` (it only
  issues `Append` calls) and `size_t` wraparound. Limits proved: a text-proto report need not be terminated by a zero
  (`pbtxt_not_terminated`), and when the statistics alone fill the buffer the factory's share is missing from the number
  returned (`pbtxt_undercount`).
- **Experiments** (`lean/Verif/Experiments`): `SelectExperiments`, `ParseExperiments`, `GetSelectedExperiments`,
  `IsExperimentActive`, `FindExperimentByName` and `WalkExperiments` (experiment.cc) over any well-formed table, and with
  the shipped table of experiment_config.h. The two hashes are arbitrary numbers; rollout bounds are rationals; builds with
  a compile-time experiment (`NPX_COMPILER_ENABLED_EXPERIMENT`) are not modelled. Finding: the assertion at
  experiment.cc:237 would fail for a test on a host in a rollout whose hashes select nothing (`rollout_assertion`); it is
  unreachable as shipped because `CalculateRolloutBucket` never selects a host.
- **Topology** (`sysinfo.cc`, `numa.{h,cc}`, `cache_topology.{h,cc}`): `ParseCpulist` is modelled with its
  16-byte buffer, the carried-over bytes and arbitrary short or failing reads. `absl::SimpleAtoi` is modelled
  from its contract. Findings: (1) a range with no end (`5-`) is accepted as the empty set and `1-3-5` as 3..5;
  (2) `1 << node` is an `int` shift: node 31 sets bits 31..63 of the mask and node 32 is undefined behaviour,
  though the mask is 64 bits wide; (3) when no node directory exists `num_nodes` ends as 0, not the default 1;
  (4) an offline CPU (missing cache list) stops the scan, so later CPUs keep index 0 whether or not they share
  the first cache; (5) cache indices are 8 bits and wrap after 256 caches. Not modelled: the aarch64
  special case, opening paths, `errno` values other than present / ENOENT / other.
- **Sampling** (`lean/Verif/Sampling`): what a sampled allocation and its free do to shared state:
  `SampleifyAllocation`, `MaybeUnsampleAllocation`, `Span::Sample`/`Unsample`, the list of
  allocation profiles, the peak heap tracker, and the rounding of a profile entry.  Every atomic
  counter access or critical section is one step, any number of calls are in flight.  The
  floating-point estimates are arbitrary functions; the peak comparison is only assumed monotone
  (`Sane`, met by exact arithmetic, `exact_sane`).  Not modelled: stack contents, hooks, guarded
  pages, the recorder's own lock-free list (C57).  Findings: (1) `MaybeSaveSample` tests
  `IsNewPeak`, then stores a size it reads again; a free in between makes it store a smaller size
  than the peak it replaces (`peak_can_shrink`), and an allocation in between can be left out of
  every peak (`peak_can_be_stale`).  (2) A sampled block much larger than its weight is listed with
  a count and a total of zero (`entry_zero`).
- **ProfileProto** (`lean/Verif/ProfileProto`): `internal/profile_builder.{h,cc}`, `MakeProfileProto`
  down to every label. `Spec.read` decodes a message with nothing but its tables; `plainHeap` and
  `plainLifetime` say what a sample should look like. Modelled: interning of strings, locations and
  call stacks, the mapping lookup (`upper_bound`, one back), the merge of samples with `size_t`
  arithmetic, all labels, all headers. Not modelled: `dl_iterate_phdr`, `realpath` and the SO name
  (the list of segments is an input), the comments and doc URL set by callers, the protocol buffer
  encoding itself, and compressibility (switched off in the code). Finding: an empty segment that
  starts at the same address as another one is found first and hides it (`empty_segment_hides`).
- **ProfileProto/BuildId**: `GetBuildId` (`internal/profile_builder.cc:225-283`). A read outside the segment, or a loop that runs
  out of fuel equal to the length of the segment, is `fail`; `build_id_safe` shows there is none. `Entry.encode` lays notes out as
  elf(5) says, for any power of two alignment. Not modelled: faults on headers that are not aligned, `GetSoName`.
- **Thread-mode heap** (`ThreadHeap/`, C01, C13, C55): the same composition as `Heap/`, with the per-thread caches of `ThreadCache/` in the place of the
  per-CPU caches: their batches go to the transfer caches, their misses are served from there or, through a waiting `Populate`, by the page heap;
  a thread without a cache frees straight to the transfer cache. A `link` event lets threads write anything to the objects in their caches (the
  free lists are linked through the objects); `cached_kept` proves that nobody else writes there, which justifies modelling the free lists as lists.
  All theorems of `Heap/Props.lean` are proved again for this machine, and here no check at all can fail (`step_defined`). The middle tier and the
  page heaps are the very models of `Heap/`. Not in this composition: the page map, guarded pages, sampling.
- **GlobalStats (C72, C73).** `Model.lean` has `ExtractStats`, the derived figures (`InUseByApp`, `VirtualMemoryUsed`, `UnmappedBytes`,
  `PhysicalMemoryUsed`, `RequiredBytes`, ...), `GetNumericProperty`, `GetProperties` and `mallinfo2`, as functions of a *reading*: what the
  tiers answer. `ThreadHeap/Stats.lean` and `Heap/Stats.lean` compute the reading of a state of the composed heaps and prove C72 for every
  reachable state. `CentralFreeList/Single.lean` adds the counters of classes with one object in a span (the code keeps none, and answers from the
  number of spans). A reading is taken in one instant: the code takes the counters of different tiers one after the other, so that with
  other threads running even the sums of C72 are approximate; at rest that makes no difference. Not modelled: the text and pbtxt forms of these figures, sampled
  and guarded allocations as part of the composed heaps. Findings: (1) six names differ between
  `GetNumericProperty` and `GetProperties`: `generic.peak_memory_usage` (peak of bytes backed by the system in one, peak of
  sampled application bytes in the other), `tcmalloc.pageheap_unmapped_bytes` (the arena's nonresident bytes are included in one only), and virtual, physical,
  required and external bytes (one counts resident metadata only); (2) `mallinfo2().fsmblks` leaves out the per-CPU and sharded caches, so that the fields do
  not add up to `arena` in the default mode; (3) the tail of a span with one object is counted as in use by the application; no
  shipped table has such a span (`GlobalStats/Tables.lean`, all 32 tables).
- **SysFiles/Status (C74).** `GetMemoryStatsFromStatus` with its 1024-byte buffer: search for line ends, moving the rest to the front, discarding a full buffer; key, white
  space, unit, number. The reads are a list of sizes chosen by the environment; each gives at most the room there is. Trusted: `StripAsciiWhitespace` and
  `SimpleAtoi` behave as documented. Finding: of a line longer than the buffer, what comes after the discarded part is taken for a line of its own; harmless for
  the files of today's kernels, whose long lines (groups, masks) have no colon after the key.
- **Treatment** (C75, C76; `huge_page_treatment.h`, the treatment part of `huge_page_filler.h`, `Collapse` of `huge_page_tracker.h`). Modelled: which hugepages a
  round of treatment selects (both selections, with pins, eviction and the order of the filler's arrays), which of them the kernel is asked to collapse, the
  statistics of it, the back-off between rounds, and releases while the kernel collapses. What is done with the observations afterwards is `Filler.treatEnd`
  (C13, C16), to which `treat_ends` connects. Trusted: `std::make_heap`, `push_heap`, `pop_heap` do what the standard says (hypothesis `Lawful`, with a proved
  instance). Not modelled: the text of the names given to sampled hugepages; the clock is a number of cycles and does not move during the selection. The
  observations of pages (page flags, residency) are arbitrary here; that they are read correctly is C60 and C61. Finding: a hugepage of which the allocator
  returned pages meanwhile is refused without asking the kernel, and counted as an attempt that failed with error "other".
- **ZeroBytes** (C77; `internal/compressibility.cc`, `SafeCopyMemory` of `internal/util.cc`, the part of `internal/profile_builder.cc` that uses them).
  Modelled: the loop that collects resident chunks, on the bitmap of C41, with its cut at the buffer's end; the copies in batches of 64 with arbitrary answers
  of the kernel (writing past the buffer is a distinct outcome, shown impossible); the estimate; the contribution of one sample. `double` arithmetic is
  exact arithmetic followed by an arbitrary rounding that is monotone, exact on integers up to 2^53 and of relative error at most 2^-53 (IEEE double rounding
  to nearest is, for the magnitudes that occur). Not modelled: memory that changes while it is copied, addresses that wrap around. Findings:
  `profile_builder.cc` reads the residency of the allocated size and analyses the requested size, so if a page at the end of the allocated part is resident
  and one in the requested part is not, bytes without memory are not counted (`profile_mismatch`); and the product of ratio and size is truncated, so that the
  figure can be one too low.
- **SafeIo** (C78, C79): `signal_safe_open/close/write/poll/read` of internal/util.cc:45-135 as loops over an arbitrary list of kernel answers (success with a count, or an errno); running out of answers is `waiting`, leaving the buffer is `ub`. `read_regular` is what justifies the all-or-nothing reads in Residency and SysFiles. Not modelled: `va_arg`, `ScopedSigmask`. Findings: `signal_safe_write` returns what its last `write` returned, not the total its header promises (`write_returns_last`); `signal_safe_close` repeats a `close` that a signal interrupted although Linux has freed the descriptor by then, so it reports EBADF (which percpu.cc:327 turns into an abort) or closes a descriptor another thread has just been given (`close_reports_failure`, `close_takes_another`).
- **Background** (C80, C81): `MallocExtension_Internal_ProcessBackgroundActions` (background.cc:36-206) as a fold of passes over arbitrary clock readings and parameters. `double` is exact rational arithmetic followed by a rounding function of which `Rounding` assumes a relative error of 2^-53 in the range that occurs, symmetry, and that the largest `ssize_t` rounds to 2^63; `demoRnd_rounding` shows the assumptions can be met. Not modelled here: what the actions do (they are modelled with their components), the mutex, sleeping. Findings: in `calculated_bytes >= kMaxSsize ? std::numeric_limits<ssize_t>::max() : calculated_bytes` the operands have types `ssize_t` and `double`, so the conditional is a `double` and its "maximum" is 2^63, which does not fit `ssize_t`: with `SetBackgroundReleaseRate(SIZE_MAX)` every pass is undefined behaviour (`highest_rate`), and with the x86-64 conversion instruction the request becomes 0, so that the highest rates release nothing (`request_nothing`). The cap at 0 for a clock that goes back comes after the conversion as well (`clock_set_back`). A clock set back stops each action until the clock has caught up with its last run (`clock_back_stalls`).
- **Process, ThreadProcess** (C82, and C01 for guarded allocations): the composed heap of `Heap/` (per-CPU mode), or of `ThreadHeap/` (per-thread mode), and the guarded page allocator of `Guarded/` side by side, each with all its steps; `History` records the memory at the start and every range the system allocator hands out.  Assumed of the kernel: a new mapping (a page heap's or the guarded region) does not overlap an older one.  The two memories are separate functions (16-bit words, bytes); what is proved is that each allocator changes its own only inside its own ranges.  Not modelled: the metadata of the allocator (arena, page map: `Arena/`, `PageMap/`), which is in memory of its own.
- **Settings** (C83; parameters.cc/.h, set_limit of page_allocator.h, the settings written by `SlowInitIfNecessary`, `decide_subrelease`).  Any number of threads call getters and setters; `LowLevelCallOnce` is three steps (enter, store, mark done) with other callers held back; each atomic store or load is a step; a limit change is one step because it holds `pageheap_lock`.  Abseil's `ToInt64Nanoseconds`, `Nanoseconds` and `LowLevelCallOnce` are modelled from their documentation (they are not in the repository).  `SlowInitIfNecessary` is one step.  Not modelled: the boolean and floating-point settings that are one constant-initialised atomic with no conversion (`release_partial_alloc_pages` and its like; they behave as `sampling` does), memory released by `set_limit` (PageAllocator component).  Findings, each with a witness theorem: `GetMemoryLimit` returns 0 before the first allocation; `SetMemoryLimit(kSoft)` before the first allocation calls through a null `normal_impl_[0]` (only the hard kind goes through `InitIfNecessary`); a per-CPU cache size or hotness threshold set before the first allocation is overwritten when the corresponding experiment is on; `SetMemoryLimit(kHard)` writes the limit twice, so a reader can see 1, 2, 1 from one call for 1 and one for 2; `SetMaxTotalThreadCacheBytes` stores the value that reads back and the one in effect separately, and overlapping calls can leave them different for good; a negative thread-cache limit means no limit.
- **Signals** (`segv_handler.cc`): `ExtractWriteFlagFromContext` (x86), `SegvHandler` on the Guarded component's `report`, `ForwardSignal`, `HandleSegvAndForward`, and the activation as four steps (each `sigaction` installs in one step and its library wrapper stores the old action in the next). `Spec.lean` states what POSIX and Linux do with the two signals (default kills, a forced signal cannot be ignored, `SA_ONSTACK`, `SA_RESETHAND`, `SA_NODEFER`, mask), and is trusted. Not modelled: the stacks and thread ids printed, aarch64, a program's handler that chains back into the allocator's, other signals arriving inside handlers. C84 is false of the code in six ways, each with a theorem: the handler is installed without `SA_ONSTACK`, so a stack-overflow handler on an alternate stack no longer runs; a one-shot handler is called again and again; masks are dropped; an ignored fault repeats for ever instead of killing; `SA_SIGINFO` with `SIG_IGN` is called as a function; and a fault between installing the handler and storing the old action kills a process that has a handler.
- **PageAllocator, Counters** (`page_allocator.cc:78-154`, `page_allocator.h:436-460`): the counters were part of the model of the limits; `CounterSpec.lean` says what an observer who sees every check knows, and `Counters.lean` proves that the counters and the peak say the same over every life of a process. A life has the heaps in any reachable state between checks; checks themselves run with no other thread in the page heap (as for C32). C85 is false in one point: the assertion of `page_allocator.cc:133` can fail in builds with assertions.
- **Checks of sized frees** (`Frontend/ChecksModel.lean`, `Checks.lean`, `ChecksRange.lean`, C86): `CorrectSize`, `CorrectAlignment` and
  `class_to_size_range`, with where the sized frees call them, for live blocks. A check ends in a `Verdict`; a report carries the range
  of sizes it calls right. Findings: (1) `realloc` ends with `TC_ASSERT(CorrectSize(old_ptr, new_size, MallocPolicy()))`, which is false
  after `memalign(16384, 8192)` and `realloc(p, 8000)`: a correct program aborts in a build with assertions (`realloc_false_alarm`;
  the same cause as C42's). (2) `class_to_size_range` takes the sizes above the class before, which is wrong for blocks whose
  alignment skipped classes: for `memalign(64, 100)` the report says 113 to 128 (`report_range_excludes_request`). Not modelled: the
  text of the reports (their record is C87), dangling and foreign pointers.
- **Reports** (C87; `Reports/{Spec,Model,Props}.lean`): `GwpAsanState` with all its `Record…` functions and accessors, and the nine
  functions of error_reporting.cc that fill it, including the 32-bit shift that computes a pointer's alignment (undefined from 32
  bits on). The first report of a process leaves the truth; so does the last of any sequence, unless it is a double free or a wild
  pointer. Finding: those two reports reset neither the allocation stack nor the alignments, so after another thread's report they
  show that error's data (`stale_stack`, `stale_alignment`). The shift is undefined exactly for multiples of 4 GiB
  (`report_defined`); wrong pointers to large blocks never are (`large_report_true_partial`), because only the first page of a large
  block leads to its span. Open: the start of a guarded slot at a multiple of 4 GiB whose block is right-aligned. Not modelled: the
  printed text, `RecordCrash`, and two reports whose writes interleave.
- **Environ** (C88; `Environ/{Spec,Model,Props,Switches}.lean`): `thread_safe_getenv` (internal/environment.cc) with its `strncmp` and
  the byte read after it, `decide_subrelease` and `use_huge_region_more_often` (huge_page_aware_allocator.cc) and the initial mode of
  heap partitioning (parameters.cc). Only the first byte of the first two switches' values counts, and every value of the third but
  `0`, `false`, `2` and `light` (also `off`, `no` and the empty string) turns partitioning fully on. Assumed: nobody changes the
  environment during the lookup. Not modelled: the choice of size classes and NUMA awareness from the environment.
