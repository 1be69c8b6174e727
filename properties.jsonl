{"id": "C01", "title": "Live blocks never overlap", "statement": "Whenever malloc/new/aligned_alloc returns a block, the bytes of that block are disjoint from the bytes of every block that was returned earlier and not yet freed, however the intervening allocations, frees, cache refills, cache overflows, cache drains, span returns and page-heap operations were interleaved between CPUs.", "quantifier": "all finite histories of allocations and frees (sizes, CPUs, classes), all internal cache-movement choices, all schedules at the granularity of the locks and restartable sequences", "why_tests_cant": "overlap appears only after particular orders of refill, overflow, drain, span reuse; the set of histories is infinite", "anchors": ["tcmalloc/tcmalloc.cc:fast_alloc,do_free", "tcmalloc/cpu_cache.h:Refill,Overflow,DrainHandler", "tcmalloc/transfer_cache_internals.h:InsertRange,RemoveRange", "tcmalloc/central_freelist.h:InsertRange,RemoveRange,Populate", "tcmalloc/span.h:FreelistPopBatch,FreelistPushBatch"]}
{"id": "C02", "title": "A block is at least as large as requested", "statement": "For every request size, alignment and policy that is classified as small, the size class chosen has a block size >= the requested size, and otherwise the number of pages allocated covers the requested size; the usable size reported for the block is that same size.", "quantifier": "all request sizes (64-bit), all power-of-two alignments, every shipped size-class table and page size, any table accepted by the table validator", "why_tests_cant": "the mapping is a rounding formula plus a table; a single wrong boundary size corrupts the heap and is one of 2^64 inputs", "anchors": ["tcmalloc/sizemap.h:GetSizeClass,ClassIndexMaybe,class_to_size", "tcmalloc/sizemap.cc:Init,SetSizeClasses,ValidSizeClasses", "tcmalloc/tcmalloc.cc:do_malloc_pages"]}
{"id": "C03", "title": "A block is aligned as requested", "statement": "For every request size and power-of-two alignment up to the page size, every object of the chosen size class inside a page-aligned span starts at a multiple of the alignment; for larger alignments up to a huge page the page allocator returns a run starting at a multiple of the alignment. Every block is at least 8-byte aligned.", "quantifier": "all sizes, all power-of-two alignments, all object indexes in a span, every shipped table", "why_tests_cant": "depends on the size of every class in every table and on all object positions", "anchors": ["tcmalloc/sizemap.h:GetSizeClass", "tcmalloc/span.h:IdxToPtr", "tcmalloc/huge_page_aware_allocator.h:NewAligned"]}
{"id": "C04", "title": "Size-class choice is tight", "statement": "The class chosen for a request is the first class (in increasing block size) that is large enough and whose block size is a multiple of the alignment: no smaller class would do.", "quantifier": "all sizes and alignments, every table accepted by the validator", "why_tests_cant": "optimality is a statement about all sizes and all classes", "anchors": ["tcmalloc/sizemap.h:GetSizeClass", "tcmalloc/sizemap.cc:Init"]}
{"id": "C05", "title": "Every shipped size-class table is well formed", "statement": "Each of the compiled-in size-class tables (default, legacy, power-of-two and relaxed-reuse sets, for each page size) passes the validator and satisfies what the rest of the allocator assumes: strictly increasing block sizes, block sizes multiples of 8, first class all zero, last class = the maximal small size, at least one object per span, batch size between 2 and 128 (or the per-class minimum), and objects fit the span freelist encoding.", "quantifier": "every entry of every table", "why_tests_cant": "unit tests run on the one configuration they are compiled for", "anchors": ["tcmalloc/size_classes.cc", "tcmalloc/legacy_size_classes.cc", "tcmalloc/experimental_pow2_size_class.cc", "tcmalloc/reuse_relaxed_below_64_size_classes.cc", "tcmalloc/sizemap.cc:ValidSizeClasses"]}
{"id": "C06", "title": "Sized and unsized free agree", "statement": "free_sized / sized operator delete called with any size that is legal for a block (the size originally requested, or any size up to the usable size that maps to the same class) puts the block on the same size class that unsized free would choose from the page map; reported usable size is a fixed point of the size-class function.", "quantifier": "all sizes and alignments, every valid table", "why_tests_cant": "a disagreement for one size silently corrupts free lists", "anchors": ["tcmalloc/tcmalloc.cc:do_free_with_size,CorrectSize,GetSize", "tcmalloc/sizemap.h:GetSizeClass"]}
{"id": "C07", "title": "calloc and reallocarray detect multiplication overflow", "statement": "calloc(n, m) and reallocarray(p, n, m) proceed to allocation only if n*m does not exceed SIZE_MAX and then request exactly n*m bytes; otherwise they fail with out-of-memory and (reallocarray) leave the old block untouched. calloc zeroes all n*m requested bytes.", "quantifier": "all pairs of 64-bit operands, all memory contents", "why_tests_cant": "2^128 operand pairs", "anchors": ["tcmalloc/tcmalloc.cc:TCMallocInternalCalloc,TCMallocInternalReallocArray", "tcmalloc/internal/overflow.h:MultiplyOverflow"]}
{"id": "C08", "title": "realloc preserves contents", "statement": "realloc returns a block whose first min(old usable size, new size) bytes equal the old ones, and on failure returns null with the old block untouched and still live; realloc in place happens only if the block already has the size a fresh allocation of the new size would have; realloc(null,n) is malloc(n) and realloc(p,0) frees p.", "quantifier": "all old and new sizes, all memory contents, all sampling decisions, allocation success or failure", "why_tests_cant": "quantifies over contents, sizes and failure points", "anchors": ["tcmalloc/tcmalloc.cc:do_realloc,TCMallocInternalRealloc"]}
{"id": "C09", "title": "Aligned-allocation entry points validate their arguments", "statement": "aligned_alloc and posix_memalign accept exactly the alignments their standards allow (power of two; for posix_memalign also multiple of the pointer size), report EINVAL for others without allocating, ENOMEM on failure without touching the out-parameter; pvalloc rounds the size up to a whole number of pages, never to fewer bytes than requested.", "quantifier": "all 64-bit alignments and sizes", "why_tests_cant": "corner cases near SIZE_MAX and non powers of two are an unbounded set", "anchors": ["tcmalloc/tcmalloc.cc:TCMallocInternalAlignedAlloc,TCMallocInternalPosixMemalign,TCMallocInternalPvalloc"]}
{"id": "C10", "title": "nallocx predicts the real allocation size", "statement": "nallocx(size, flags) equals the usable size of the block that allocating size with the alignment encoded in flags would return.", "quantifier": "all sizes and all flag values", "why_tests_cant": "all (size, alignment) pairs", "anchors": ["tcmalloc/tcmalloc.cc:nallocx,nallocx_slow,do_malloc_pages"]}
{"id": "C11", "title": "Address to descriptor lookup is exact", "statement": "After registering a run of pages for a span, looking up any address inside it yields that span and its size class; looking up any address never registered yields nothing; registering or unregistering one span never changes the answer for pages of another; the same holds for the per-hugepage slot.", "quantifier": "all page numbers of the address space, all sequences of ensure/register/unregister/lookup", "why_tests_cant": "radix-tree index arithmetic over the whole 48-bit address space and all histories", "anchors": ["tcmalloc/pagemap.h:PageMap3,PageMap", "tcmalloc/pagemap.cc:RegisterSizeClass,UnregisterSizeClass"]}
{"id": "C12", "title": "Page-run tracker hands out only free runs, best fit", "statement": "Inside a hugepage or region, an allocation of n pages succeeds iff n is at most the reported longest free run; the run returned was entirely free, becomes entirely used, no other page changes; it is a smallest sufficient free run (lowest address among equals); reported longest free run, used page count and allocation count are exact; freeing a run makes exactly these pages free.", "quantifier": "all bitmaps of every length, all n, all histories of get/put", "why_tests_cant": "2^N bitmaps", "anchors": ["tcmalloc/internal/range_tracker.h:RangeTracker,Bitmap"]}
{"id": "C13", "title": "Live pages are never given back to the kernel", "statement": "No page belonging to a live allocation is ever passed to the function that returns memory to the kernel, by any of: sub-release of free pages of a hugepage, release of a fully freed hugepage, cache shrinking, region release, or release of unbacked pages; including when the kernel call fails part-way.", "quantifier": "all histories of page allocation, free and release requests, all kernel success/failure answers", "why_tests_cant": "a violation destroys user data and needs a particular interleaving of alloc, free, release and failure", "anchors": ["tcmalloc/huge_page_tracker.h:ReleaseFree,MarkSubreleased", "tcmalloc/huge_region.h:UnbackHugepages,Put,Release", "tcmalloc/huge_cache.cc:ShrinkCache,Release", "tcmalloc/huge_page_filler.h:Put,ReleaseCandidates"]}
{"id": "C14", "title": "Hugepage tracker accounting is exact", "statement": "For each hugepage, the number of released pages equals the number of pages whose released mark is set, released pages are always free pages, used + free = 256 (pages per hugepage), and getting a run reports exactly how many of its pages were previously returned to the kernel.", "quantifier": "all histories of get, put, release with failing kernel calls, mark-subreleased", "why_tests_cant": "counter vs bitmap agreement under all histories", "anchors": ["tcmalloc/huge_page_tracker.h:PageTracker::Get,Put,ReleaseFree,MarkSubreleased,AddSpanStats"]}
{"id": "C15", "title": "Filler accounting is exact", "statement": "The hugepage filler's totals (hugepages held, pages allocated, pages unmapped, used pages on (partially) released hugepages) always equal the sums over the hugepages it holds; reported free = size - used - unmapped never goes negative; every hugepage is on exactly the list its state calls for.", "quantifier": "all histories of contribute, try-get, put, release, treatment; all kernel answers", "why_tests_cant": "incremental counters against recomputed sums over all histories", "anchors": ["tcmalloc/huge_page_filler.h:TryGet,Put,Contribute,AddToFillerList,RemoveFromFillerList,ReleaseCandidates,stats"]}
{"id": "C16", "title": "Filler returns a hugepage exactly when it is empty", "statement": "Freeing a run to the filler yields the hugepage back for release iff no page of it remains allocated (and it is not pinned by a background treatment, in which case it is delivered after the treatment); a hugepage with live pages is never yielded.", "quantifier": "all histories", "why_tests_cant": "early or lost release depends on long histories", "anchors": ["tcmalloc/huge_page_filler.h:Put,FetchFullyFreedTracker", "tcmalloc/huge_page_treatment.h"]}
{"id": "C17", "title": "Hugepage address map stays a sorted set of maximal disjoint ranges", "statement": "The free-range map contains exactly the hugepages inserted and not removed, as disjoint non-adjacent ranges in address order; insertion coalesces with both neighbours; the cached per-subtree maximum is exact; total size is exact.", "quantifier": "all sequences of insert and remove, all random priorities", "why_tests_cant": "all tree shapes", "anchors": ["tcmalloc/huge_address_map.h", "tcmalloc/huge_address_map.cc:Insert,Remove,Merge,FixLongest,Predecessor,Check"]}
{"id": "C18", "title": "Hugepage allocator hands out disjoint ranges and conserves pages", "statement": "Every hugepage range returned by the hugepage allocator was free, lies in memory obtained from the system, has exactly the requested length, and pages from system = pages in use + pages free at all times; a request is satisfied from free ranges whenever some free range is large enough, choosing a smallest sufficient one.", "quantifier": "all histories of get and release, all system answers including failure and over-sized regions", "why_tests_cant": "all histories and all answers of the system allocator", "anchors": ["tcmalloc/huge_allocator.cc:Find,Get,Release,AllocateRange"]}
{"id": "C19", "title": "Hugepage cache conserves hugepages and respects its target", "statement": "A hugepage released to the cache is afterwards either cached or returned to the allocator, never both and never lost, even when unbacking fails; cache size counter is exact; hits return disjoint cached ranges; shrinking stops only at the target or when the kernel refuses; released = exactly the reduction of the cached size.", "quantifier": "all histories, all kernel answers, all clock readings", "why_tests_cant": "failure paths and time-dependent limits", "anchors": ["tcmalloc/huge_cache.cc:Get,Release,ShrinkCache,ReleaseCachedPages,MaybeGrowCacheLimit,MaybeShrinkCacheLimit"]}
{"id": "C20", "title": "Huge-region accounting and backing state are exact", "statement": "In a huge region, runs handed out are disjoint and inside the region; per-hugepage used counts are exact; a hugepage with a used page is always marked backed; from_released is reported iff some page of the run was on a hugepage not known to be backed; free, unmapped and free-backed totals are exact.", "quantifier": "all histories of get, put, release, all kernel answers", "why_tests_cant": "counters against sums over all histories", "anchors": ["tcmalloc/huge_region.h:MaybeGet,Put,Inc,Dec,UnbackHugepages,AddSpanStats"]}
{"id": "C21", "title": "Page heap: page runs are disjoint, in bounds, conserved", "statement": "Page runs handed out by the hugepage-aware page allocator are pairwise disjoint, inside mapped memory, of exactly the requested length; freeing returns them to the component they came from; every hugepage is at all times in exactly one component (system-free, cache, filler, region, or raw allocation).", "quantifier": "all histories of New, NewAligned, Delete, release", "why_tests_cant": "composition of five stateful components over all histories", "anchors": ["tcmalloc/huge_page_aware_allocator.h:New,NewAligned,Delete,AllocSmall,AllocLarge,AllocRawHugepages,ReleaseHugepage"]}
{"id": "C22", "title": "Page-heap statistics add up", "statement": "At all times the reported system bytes equal used + free + unmapped bytes, and used equals the bytes of live page runs (plus the documented slack).", "quantifier": "all histories", "why_tests_cant": "sums over all histories", "anchors": ["tcmalloc/huge_page_aware_allocator.h:stats", "tcmalloc/huge_page_filler.h:stats", "tcmalloc/huge_cache.cc:stats", "tcmalloc/huge_allocator.h:stats"]}
{"id": "C23", "title": "Span free list is a faithful set of free objects", "statement": "For any sequence of batch pops and pushes on a span, an object is popped only if it is not currently allocated, each push makes exactly that object available again, pops return at most min(requested, available) and never fewer than that, the span reports itself empty exactly when everything is allocated and completely free exactly when nothing is; this holds for both free-list encodings and both their build phases.", "quantifier": "all object sizes and counts a span supports, all sequences of pops and pushes, both encodings", "why_tests_cant": "the list encoding reuses freed objects as list nodes; corruption needs particular sequences", "anchors": ["tcmalloc/span.h:FreelistPopBatch,FreelistPushBatch", "tcmalloc/span.cc:BuildFreelist,ListPopBatch,ListPushBatch,BitmapPushBatch,BitmapPopBatch"]}
{"id": "C24", "title": "Object index arithmetic is exact", "statement": "For every object of every size class that uses the bitmap encoding, converting the object's address to its index by reciprocal multiplication gives exactly its index, and converting back gives the address; indexes fit the encoding.", "quantifier": "all size classes using bitmap encoding in all tables, all object offsets", "why_tests_cant": "fixed-point reciprocal division must round correctly at every offset", "anchors": ["tcmalloc/span.h:CalcReciprocal,OffsetToIdx,PtrToIdx,IdxToPtr"]}
{"id": "C25", "title": "Central free list conserves objects and returns empty spans", "statement": "Objects inserted into or removed from the central free list are conserved: object count = removed/inserted balance; a span goes back to the page heap exactly when all its objects are free; spans with free objects stay findable; removal returns at most n and at least one object unless the page heap is exhausted.", "quantifier": "all histories of insert/remove batches, all page-heap answers", "why_tests_cant": "all histories", "anchors": ["tcmalloc/central_freelist.h:RemoveRange,InsertRange,Populate,ReleaseToSpans"]}
{"id": "C26", "title": "Transfer cache conserves objects and respects capacities", "statement": "Objects moved through the transfer cache and its shards come out exactly once, newest first, and are never lost: at every moment each is with a caller, in one cache, on its way to the layer below, or back in the central list; 0 <= used <= capacity <= max capacity always; resizing across classes takes one batch of capacity from each of some classes and gives one batch to each of equally many others that missed at least as often, never down to zero or above a maximum, and always terminates (counted in bytes the total may change); plundering moves exactly the objects unused since the last plunder.", "quantifier": "all histories of insert/remove/grow/shrink/plunder from any number of threads", "why_tests_cant": "lock-free hints plus locks; all interleavings", "anchors": ["tcmalloc/transfer_cache_internals.h:TransferCache", "tcmalloc/transfer_cache.h:TransferCacheManager"]}
{"id": "C27", "title": "Per-CPU slab operations never lose or duplicate an object", "statement": "For any number of threads and CPUs and any preemption, migration, restart, slab resize, stop/drain and concurrent push/pop, each object pushed into a per-CPU slab is popped at most once and is never lost: it is in exactly one of slab, popped, drained.", "quantifier": "all interleavings at instruction granularity of the restartable sequences, any number of threads/CPUs/classes", "why_tests_cant": "restartable sequences abort at any instruction; resize and drain run remotely; schedules are infinite", "anchors": ["tcmalloc/internal/percpu_tcmalloc.h:TcmallocSlab_Internal_Push,TcmallocSlab_Internal_Pop,Grow,ShrinkOtherCache,Drain,ResizeSlabs,StopCpu", "tcmalloc/internal/percpu_rseq_x86_64.S"]}
{"id": "C28", "title": "Per-CPU cache capacity budget is never exceeded", "statement": "On each CPU, unallocated budget + sum over size classes of capacity times block size equals the CPU's budget at quiescence and never exceeds it; stealing between CPUs conserves the total; thus total cached bytes never exceed the configured limit times the number of CPUs.", "quantifier": "all histories of grow, steal, shuffle, resize, reclaim, on all CPUs", "why_tests_cant": "concurrent atomics, many code paths", "anchors": ["tcmalloc/cpu_cache.h:UpdateCapacity,Grow,StealFromOtherCache,ResizeCpuSizeClasses,DrainHandler,subtract_at_least"]}
{"id": "C29", "title": "Refill and overflow move bounded, complete batches", "statement": "Allocation miss: the object returned plus the objects left in the cache plus the objects given back equal exactly the objects taken from the lower layer; free overflow: the freed object plus cached objects are each either kept or passed down exactly once; batch targets lie between 1 and the documented bound.", "quantifier": "all capacities, batch sizes, success counters, lower-layer answers", "why_tests_cant": "batch-size arithmetic and early-exit paths", "anchors": ["tcmalloc/cpu_cache.h:Refill,DeallocateSlowNoHooks,TargetOverflowRefillCount"]}
{"id": "C30", "title": "Thread-cache mode accounting", "statement": "In per-thread mode, the cache's byte size equals the sum of its lists, objects are conserved across fetch, release and scavenging, and the per-thread limits are conserved by stealing from the shared pool.", "quantifier": "all histories of allocate/deallocate/scavenge/steal on any number of threads", "why_tests_cant": "all histories", "anchors": ["tcmalloc/thread_cache.cc", "tcmalloc/thread_cache.h"]}
{"id": "C31", "title": "Metadata arena never hands out overlapping or misaligned memory", "statement": "Blocks returned by the metadata arena are pairwise disjoint, aligned as asked, inside memory obtained from the system; allocated + unallocated + unavailable bytes equal the bytes obtained.", "quantifier": "all sequences of (size, alignment) requests and system answers", "why_tests_cant": "free-area stashing and reuse depends on history", "anchors": ["tcmalloc/arena.cc:Alloc,AllocSlow,StashRemainingFreeArea,TryPopFromFreelist"]}
{"id": "C32", "title": "Memory limits trigger exactly the needed releases", "statement": "When usage exceeds a soft or hard limit the page allocator asks the components for at least the excess, in order of preference, and aborts only if usage still exceeds a hard limit after everything releasable was released.", "quantifier": "all usage values, limits and release outcomes", "why_tests_cant": "all combinations", "anchors": ["tcmalloc/page_allocator.cc:ShrinkToUsageLimit,ShrinkHardBy"]}
{"id": "C33", "title": "ReleaseMemoryToSystem releases what it reports", "statement": "A release request reports exactly the number of pages whose backing was returned by it, releases at least the request unless nothing more is releasable, and never breaks allocations.", "quantifier": "all heap states and request sizes", "why_tests_cant": "all heap states", "anchors": ["tcmalloc/page_allocator.h:ReleaseAtLeastNPages", "tcmalloc/huge_page_aware_allocator.h:ReleaseAtLeastNPages", "tcmalloc/tcmalloc.cc:MallocExtension_Internal_ReleaseMemoryToSystem"]}
{"id": "C34", "title": "Guarded allocations are placed correctly", "statement": "The guarded page allocator never hands out one slot twice while in use, places each object entirely inside its slot's page with the requested alignment and either left- or right-adjacent to a guard page, reports the faulting address's slot correctly for every address, and never exceeds its allocation limit.", "quantifier": "all histories, sizes, alignments and random draws; all addresses", "why_tests_cant": "all random draws and addresses", "anchors": ["tcmalloc/guarded_page_allocator.cc"]}
{"id": "C35", "title": "Sampling counter arithmetic", "statement": "For sizes below 2^63 and sampling intervals that are not negative, a thread's sampler samples an allocation exactly when the bytes recorded since the last sample (k+1 for a request of k) reach the number drawn, and reports as weight the interval plus the bytes beyond that point, so that the weights of all samples account for every byte up to the difference between draws and intervals. The fast path and the slow path decide identically and count each allocation once, the prediction used by realloc agrees, an interval of 1 samples everything, 0 samples nothing, and sampling comes back within 128 MiB of being turned on.", "quantifier": "all sequences of sizes and all drawn intervals", "why_tests_cant": "all sequences; wrap-around of the byte counter", "anchors": ["tcmalloc/sampler.h", "tcmalloc/sampler.cc"]}
{"id": "C36", "title": "Memory-tag and partition decoding", "statement": "The tag bits and heap partition decoded from any address inside a tagged region equal those used when the region was requested, and classes of different partitions/tags never share memory.", "quantifier": "all addresses of tagged regions, all tags", "why_tests_cant": "whole address space", "anchors": ["tcmalloc/internal/memory_tag.h", "tcmalloc/common.h:PartitionFromPointer", "tcmalloc/internal/system_allocator.h"]}
{"id": "C37", "title": "System allocator returns aligned regions inside what it mapped", "statement": "Memory obtained from the OS for a tag is aligned as requested, lies entirely in a region reserved for that tag, successive requests are disjoint, and the reported size covers the request.", "quantifier": "all sequences of requests, all mmap answers", "why_tests_cant": "all mmap answers", "anchors": ["tcmalloc/internal/system_allocator.h:Allocate,MmapAligned", "tcmalloc/internal/system_allocator.cc"]}
{"id": "C38", "title": "Intrusive doubly linked list keeps every element exactly once", "statement": "prepend/append/remove on the intrusive list used for spans and trackers keep the list a well-formed sequence containing exactly the inserted, not removed elements, in order, with exact length.", "quantifier": "all sequences of operations", "why_tests_cant": "pointer structure over all histories", "anchors": ["tcmalloc/internal/linked_list.h:TList,LinkedList"]}
{"id": "C39", "title": "Non-empty index of tracker lists is exact", "statement": "The bitmap of non-empty lists always agrees with the lists, the smallest adequate non-empty list is the one searched, and size equals the number of elements.", "quantifier": "all sequences of add/remove/move/get-least", "why_tests_cant": "all histories", "anchors": ["tcmalloc/hinted_tracker_lists.h"]}
{"id": "C40", "title": "Windowed time-series statistics are exact", "statement": "The peak/minimum over the last window reported to the release heuristics equals the true maximum/minimum of the values recorded in the epochs of that window, with old epochs expiring exactly; a decision not to release keeps enough mapped for that demand. (The epoch number is the time divided by the epoch length provided the length in ticks is not a power of two; for a power of two the constant overflows and the clock stands still.)", "quantifier": "all sequences of reports and clock advances", "why_tests_cant": "all histories and clock gaps", "anchors": ["tcmalloc/internal/timeseries_tracker.h", "tcmalloc/huge_cache.h:MinMaxTracker", "tcmalloc/huge_page_subrelease.h"]}
{"id": "C41", "title": "Page-state bitmaps behave as sets of indices", "statement": "For a bitmap of N bits, range set/clear changes exactly the bits of the range; forward and backward searches return the nearest set/clear bit or report that there is none; counting, popping the lowest bits, the bitwise operators and rescaling are exact; no operation ever sets a bit outside [0, N).", "quantifier": "every N (any number of 64-bit words, including a partial last word), every bitmap content, every index and range", "why_tests_cant": "Word-boundary arithmetic (shifts, masks, partial last word) has a case for every alignment of the range against the words; tests sample some of them.", "anchors": ["tcmalloc/internal/range_tracker.h:Bitmap"]}
{"id": "C42", "title": "Sized free with the size last passed to realloc", "statement": "After any sequence of malloc/calloc/realloc/aligned allocation calls, freeing a live block with free_sized/sdallocx using the size last requested for it returns the block to the place it came from, exactly as free() would.", "quantifier": "every history of legal calls, every table, partition, size and alignment", "why_tests_cant": "depends on the interaction of in-place realloc with every size class boundary and alignment; tests exercise a handful of sizes", "anchors": ["tcmalloc/tcmalloc.cc:do_realloc", "tcmalloc/tcmalloc.cc:do_free_with_size"]}
{"id": "C43", "title": "Mismatched frees of sampled blocks are reported", "statement": "Freeing a sampled small block through a sized call with a size its allocation did not promise, or any sampled block through the wrong family (new vs malloc), always ends in a report, never in a silent free.", "quantifier": "every sampled allocation, every wrong size, every policy of the freeing call", "why_tests_cant": "the wrong sizes and policies are unbounded and sampling makes the path rare", "anchors": ["tcmalloc/allocation_sampling.h:MaybeUnsampleAllocation", "tcmalloc/tcmalloc.cc:InvokeHooksAndFreePages"]}
{"id": "C44", "title": "Enumerating allocated ranges lists every live span once and nothing else", "statement": "Listing the allocated address ranges reports each currently allocated span exactly once, in address order, and reports no freed span.", "quantifier": "every page-map history and every set of live spans", "why_tests_cant": "A stale entry only shows up for multi-page spans freed without their pages being reused; tests enumerate small live heaps.", "anchors": ["tcmalloc/pagemap.h:GetAllocatedSpans", "tcmalloc/pagemap.h:get_next_set_page", "tcmalloc/huge_page_aware_allocator.cc:ClearSpan"]}
{"id": "C45", "title": "Releasing the metadata of drained per-CPU caches never aborts", "statement": "Whenever the background thread releases the metadata of CPUs whose caches have been drained, it finds each such CPU's unallocated budget equal to its whole budget, so the process does not abort, whatever allocating threads are doing.", "quantifier": "all interleavings of allocating threads with drain and release by the background thread", "why_tests_cant": "needs a thread suspended between two atomic accesses during a drain and a release", "anchors": ["tcmalloc/cpu_cache.h:ReleaseSlabMetadataForDrainedCpus,Grow", "tcmalloc/internal/percpu_tcmalloc.h:MadviseAwayDrainedSlabs"]}
{"id": "C46", "title": "Every accepted thread-cache limit keeps the allocator working", "statement": "Whatever value a program passes to MallocExtension::SetMaxTotalThreadCacheBytes, at any time, every thread can go on to get a cache, allocate and free, without a failed assertion or a wild access; the overall limit becomes the given value raised to the minimum size of one cache.", "quantifier": "every 64-bit value of the limit, every reachable state of any number of thread caches", "why_tests_cant": "The failure needs a particular value at a particular moment (before any cache exists); tests set a few ordinary values.", "anchors": ["tcmalloc/thread_cache.cc:set_overall_thread_cache_size", "tcmalloc/thread_cache.cc:RecomputePerThreadCacheSize", "tcmalloc/thread_cache.cc:IncreaseCacheLimitLocked", "tcmalloc/malloc_extension.h:SetMaxTotalThreadCacheBytes"]}
{"id": "C47", "title": "After a limit check the usage is within the hard limit", "statement": "Whenever a check of the memory limits returns instead of aborting, the memory in use (backed pages plus metadata) is at most the hard limit; and at most the soft limit, unless nothing releasable is left.", "quantifier": "all reachable heap states, limits, kernel answers", "why_tests_cant": "needs a particular earlier history of partial releases and frees before the limit is hit", "anchors": ["tcmalloc/page_allocator.cc:ShrinkToUsageLimit", "tcmalloc/page_allocator.cc:ShrinkHardBy", "tcmalloc/huge_page_filler.h:ReleasePages", "tcmalloc/malloc_extension.h:SetMemoryLimit"]}
{"id": "C48", "title": "Repeated release requests release at the requested rate", "statement": "What one release request returned to the kernel beyond its size is deducted from the following requests until it is used up, so that over any series of requests the memory released exceeds the sum of the requests by at most the overshoot of one release.", "quantifier": "all heap states and series of request sizes", "why_tests_cant": "the loss shows only over a series of requests of particular sizes relative to what each released", "anchors": ["tcmalloc/static_vars.h:ConstantRatePageAllocatorReleaser", "tcmalloc/malloc_extension.h:ReleaseMemoryToSystem"]}
{"id": "C49", "title": "With subrelease off a hard limit never breaks hugepages", "statement": "A process that turned off the breaking of hugepages and uses a hard limit never has a hugepage broken to meet it; it is aborted instead when whole hugepages are not enough.", "quantifier": "all heap states, limits and settings", "why_tests_cant": "needs a combination of settings and a heap that cannot meet the limit with whole hugepages", "anchors": ["tcmalloc/page_allocator.cc:ShrinkHardBy", "tcmalloc/page_allocator.h:set_limit", "tcmalloc/parameters.cc:hpaa_subrelease"]}
{"id": "C50", "title": "Errors on guarded allocations are detected and attributed", "statement": "A double free of a guarded allocation, a free of an address that is not its start, an access before it or behind it that reaches a guard page, and an access after it was freed are each stopped and reported with the right kind of error and for the right allocation, for every address within half a page of it and whatever happened in between as long as the slot has no new object; writes into the checked bytes behind a right-aligned allocation are reported when it is freed, if and only if they change a byte. A program without such errors never gets a report.", "quantifier": "all histories, interleavings of calls, addresses, sizes, alignments and memory contents", "why_tests_cant": "the slot chosen, the address and the interleaving vary; tests check a few addresses per error", "anchors": ["tcmalloc/guarded_page_allocator.cc", "tcmalloc/guarded_page_allocator.h"]}
{"id": "C51", "title": "Guarding respects the configured rate", "statement": "A sampled allocation is guarded only if guarding is enabled and the allocation fits a page, and only if the number of guarded allocations so far times the guarded sampling interval is at most the number of sampled allocations times the profile sampling interval; a stack trace that is not covered yet is never filtered out.", "quantifier": "all settings, counts and random draws", "why_tests_cant": "settings and counts are unbounded", "anchors": ["tcmalloc/guarded_page_allocator.cc"]}
{"id": "C52", "title": "The stack-trace filter has no false negatives", "statement": "With no call in progress, the filter contains every stack trace added and not removed as often, and each of the kDecaySteps most recently added ones, as long as no counter can overflow, for every interleaving of the calls before; after everything was removed and decayed it contains nothing.", "quantifier": "all interleavings of Add, Decay and DecayAll at the granularity of atomic operations; all hash functions", "why_tests_cant": "interleavings and hash collisions are beyond enumeration", "anchors": ["tcmalloc/internal/stacktrace_filter.h"]}
{"id": "C53", "title": "Giving memory back touches only whole pages inside the range", "statement": "When a range is released to the kernel, the kernel is told about a range of whole system pages that lies inside it and contains every whole page of it; nothing outside is touched; success is reported exactly if the kernel released the pages, possibly after unlocking them; and an error is counted exactly if the kernel was asked and did not.", "quantifier": "all ranges, release preferences and kernel answers", "why_tests_cant": "ranges that do not start or end at page boundaries, and all combinations of kernel answers", "anchors": ["tcmalloc/internal/system_allocator.h:Release,ReleasePages"]}
{"id": "C54", "title": "No skipped-release decision is confirmed twice", "statement": "The statistics about releases that were skipped because of expected demand count every such decision exactly once, and the decisions reported as correct together with those still pending never exceed all decisions, in pages and in number, so the reported percentages are at most 100% and no difference underflows.", "quantifier": "all sequences of skipped releases and usage reports, at any clock readings, including a clock going back", "why_tests_cant": "whether a decision is counted again depends on the peaks of all newer epochs, on several updates in one epoch and on ring wrap-around", "anchors": ["tcmalloc/huge_page_subrelease.h:SkippedSubreleaseCorrectnessTracker", "tcmalloc/huge_page_subrelease.h:SubreleaseStatsTracker"]}
{"id": "C55", "title": "Nothing leaks", "statement": "Every object of every span and every page obtained from the system is at every moment in exactly one accounted place: with a user, in a per-CPU cache, in a transfer cache, in a batch on its way between two of them, free in its span, free or unmapped in a page heap, or in the hands of a call in progress. Consequently, once users have freed everything and the caches have been drained, no span is out and the page heaps hold every page the system ever gave.", "quantifier": "all finite histories of allocations, frees, refills, overflows, drains, plunders, span returns and page-heap operations, all size classes, CPUs and tags, all interleavings at the granularity of locks and restartable sequences", "why_tests_cant": "a lost object shows only after particular interleavings and only as slow growth; the set of histories is infinite", "anchors": ["tcmalloc/cpu_cache.h:Refill,Overflow,Drain", "tcmalloc/transfer_cache_internals.h:InsertRange,RemoveRange,TryPlunder", "tcmalloc/central_freelist.h:InsertRange,Populate", "tcmalloc/huge_page_aware_allocator.h:New,Delete"]}
{"id": "C56", "title": "Hooks are called exactly while installed", "statement": "Every allocation (and deallocation, and sampled allocation) calls each installed hook as many times as it has been added and not removed, never a null pointer and never more than seven hooks, however Add and Remove of other hooks by other threads interleave; a hook whose Remove has returned is not called by later allocations. Add fails only for null or if seven hooks are installed, Remove only if the hook is not installed.", "quantifier": "Every sequence of Add, Remove and Invoke calls, every interleaving of their individual loads and stores, every hook", "why_tests_cant": "Invoke reads the list without a lock while other threads change it slot by slot; tests see few interleavings", "anchors": ["tcmalloc/internal/hook_list.h:HookList", "tcmalloc/malloc_hook.h:MallocHook", "tcmalloc/malloc_hook_invoke.h"]}
{"id": "C57", "title": "Heap profiles list exactly the live samples", "statement": "While threads register and unregister sampled allocations in any order, a heap profile lists no sample twice, lists every sample that was registered before the profile began and is not unregistered before it ends, with the content it was registered with, and lists nothing that was not registered at some moment in between. A newly registered sample is never one still in use; memory for samples is taken only when no unregistered one can be reused; unregistering everything leaves only samples registered meanwhile; the disposal callback is given every sample with its registered content.", "quantifier": "every interleaving of any number of threads calling register, unregister, iterate, unregister-all and set-callback, including spurious compare-exchange failures", "why_tests_cant": "profiles are taken while the lock-free list of samples grows and dead samples are recycled; only some interleavings lose or duplicate a sample", "anchors": ["tcmalloc/internal/sampled_allocation_recorder.h: SampleRecorder::Register", "SampleRecorder::Unregister", "SampleRecorder::Iterate", "SampleRecorder::UnregisterAll", "tcmalloc/peak_heap_tracker.cc"]}
{"id": "C58", "title": "Lifetime profiles account for exactly the allocations seen", "statement": "A lifetime profile, when stopped, reports for each pair of allocation and deallocation stacks and each combination of same/different CPU, virtual CPU, cache, NUMA node and thread exactly one entry if such a lifetime was seen, with the exact count, shortest, longest and average lifetime (an allocation still live counts until the stop); an event trace shows allocation and deallocation of the first pairs, cut only when fewer than two places are left. Allocations made while the profile runs are seen with the CPU and thread that made them; earlier ones are seen if they were registered when the start began and not deallocated until it was over; nothing else is. Shown lifetimes are rounded down within a factor of ten (below a millisecond) or to whole milliseconds, and the shortest shown is at most the average and that at most the longest.", "quantifier": "every interleaving of sampled allocations and deallocations with any number of profiles being started and stopped, every stack, size and time", "why_tests_cant": "which deallocations are paired with which allocations depends on the interleaving of reports with the start and stop of profiles", "anchors": ["tcmalloc/deallocation_profiler.cc: DeallocationProfiler::ReportMalloc", "DeallocationProfiler::ReportFree", "DeallocationProfilerList::Add", "DeallocationStackTraceTable::AddTrace", "DeallocationStackTraceTable::Iterate", "internal::LifetimeNsToBucketedDuration", "tcmalloc/allocation_sampling.h"]}
{"id": "C59", "title": "Lifetime profiles report the standard deviation of the lifetimes", "statement": "For each entry of a lifetime profile the standard deviation reported is the standard deviation of the lifetimes counted in the entry.", "quantifier": "every sequence of lifetimes", "why_tests_cant": "the value is an incremental update over an unbounded sequence; the tests only check that it is not negative and not too large", "anchors": ["tcmalloc/deallocation_profiler.cc: DeallocationStackTraceTable::AddTrace", "DeallocationStackTraceTable::Iterate"]}
{"id": "C60", "title": "Residency reports are exact to the byte", "statement": "Asking how much of a range of memory is resident or swapped (heap profiles' residency columns, per-CPU and page-table metadata residency, hugepage treatment) returns exactly the number of bytes of that range that lie on pages in memory, respectively in swap, for any address and size; it never reads or writes outside its buffers and fails only if the operating system does. For a hugepage, an allocator page is recorded as unbacked only if every native page in it is neither in memory nor in swap, and as swapped if some native page is.", "quantifier": "every page size, address, size, kernel page table and pattern of failing system calls", "why_tests_cant": "unit tests probe a few ranges; first/last partial pages, batch boundaries at 512 and 4096 pages and mixed page states are combinatorial", "anchors": ["tcmalloc/internal/residency.cc:ResidencyPageMap::Get", "tcmalloc/internal/residency.cc:GetUnbackedAndSwappedBitmaps", "tcmalloc/internal/mincore.cc:MInCore::residence_impl", "tcmalloc/huge_page_treatment.h:Treat"]}
{"id": "C61", "title": "Staleness reports are exact to the byte", "statement": "Asking how many bytes of a range of memory are stale or locked returns exactly the number of bytes on stale, respectively locked, pages, where every page of a transparent hugepage counts as its first page does; provided compound pages are whole hugepages, as the code documents. The scan period accompanies the answer exactly when some byte is stale.", "quantifier": "every page size, address, size, arrangement of hugepages and native pages and pattern of failing system calls", "why_tests_cant": "the interplay of the first page inside a hugepage, seeks past it, batches and remembered head pages cannot be enumerated by tests", "anchors": ["tcmalloc/internal/pageflags.cc:PageFlags::Get", "tcmalloc/internal/pageflags.cc:MaybeReadOne", "tcmalloc/internal/pageflags.cc:ReadMany", "tcmalloc/internal/pageflags.cc:GetSinglePageBitmaps", "tcmalloc/internal/pageflags.cc:IsHugepageBacked"]}
{"id": "C62", "title": "Statistics reports never overrun and are never silently cut off", "statement": "Reporting statistics as text never writes outside the buffer it is given. The buffer then holds a prefix of the full text: all of it whenever the number returned is smaller than the buffer, and that number is then the length of the text. MallocExtension::GetStats returns the complete text of one moment, or an empty string when it exceeds 8 MiB; malloc_stats writes the text up to 65535 bytes.", "quantifier": "every buffer size and contents, every sequence and length of formatted pieces, every well-behaved region factory", "why_tests_cant": "pieces whose end falls exactly on, one before or one after the end of the buffer, in every combination of the two ways of printing, are too many to enumerate", "anchors": ["tcmalloc/internal/logging.h:Printer", "tcmalloc/tcmalloc.cc:MallocExtension_Internal_GetStatsInPbtxt", "tcmalloc/tcmalloc.cc:MallocExtension_Internal_GetStats", "tcmalloc/tcmalloc.cc:TCMalloc_Internal_GetStats", "tcmalloc/tcmalloc.cc:PrintStats"]}
{"id": "C63", "title": "The experiment variables select exactly what they say", "statement": "An experiment is active exactly if BORG_EXPERIMENTS is 'enable-all-known-experiments' or lists its name between commas, and BORG_DISABLE_EXPERIMENTS is neither 'all' nor lists its name; unknown names are ignored. With BORG_DISABLE_EXPERIMENTS=all no experiment is ever active. A test that sets neither variable never runs with a brittle experiment, and runs with none only if its hash puts it among the one in eleven that do.", "quantifier": "every value of the environment variables, every hash, every well-formed experiment table", "why_tests_cant": "the values are arbitrary strings, with empty items, repeated names, names that are prefixes of others and keywords in lists", "anchors": ["tcmalloc/experiment.cc:SelectExperiments", "tcmalloc/experiment.cc:ParseExperiments", "tcmalloc/experiment.cc:GetSelectedExperiments", "tcmalloc/experiment.cc:WalkExperiments", "tcmalloc/experiment_config.h:experiments"]}
{"id": "C64", "title": "CPU lists from the system are read exactly", "statement": "Reading a list of CPUs from the system (the form 0-11,22-33 used by sysfs) yields exactly the CPUs listed, however the text is split into pieces by the read calls; for any other text, reading ends without overrunning its buffer and either fails or yields CPUs within the supported range; the number of possible CPUs derived from it is one more than the largest number listed and never above the supported maximum.", "quantifier": "every CPU list with any number of entries, every text, every sequence of read sizes and read failures", "why_tests_cant": "There are unboundedly many texts and ways to split them over read calls; a test exercises a few.", "anchors": ["tcmalloc/internal/sysinfo.cc:ParseCpulist", "tcmalloc/internal/sysinfo.cc:NumPossibleCPUsNoCache"]}
{"id": "C65", "title": "NUMA partitions and cache indices are those of the machine", "statement": "Each CPU is assigned the partition of the NUMA node that lists it, each partition's node mask has exactly the bits of its nodes, awareness is on exactly when it is wanted and useful, with it off every thread uses partition 0; and two CPUs get the same cache index exactly when they share their last-level cache.", "quantifier": "every machine: any number of nodes up to 31 and of caches up to 256, any disjoint CPU lists, any grouping of CPUs into caches, any environment setting", "why_tests_cant": "Tests run on the machines at hand; the claim is about all node and cache layouts.", "anchors": ["tcmalloc/internal/numa.cc:InitNumaTopology", "tcmalloc/internal/numa.h:NumaTopology", "tcmalloc/internal/cache_topology.cc:CacheTopology::Init", "tcmalloc/internal/cache_topology.h:CacheTopology::GetL3FromCpuId"]}
{"id": "C66", "title": "Accounts of sampled allocations are exact", "statement": "However sampled allocations and deallocations interleave, once none is under way the recorder of live samples holds exactly the sampled blocks the program still holds, the sampled heap size and the estimated internal fragmentation are the totals of the per-block estimates over exactly those blocks, the count of samples ever taken is exact, no check on these accounts ever fails, they are never negative, and every sample has its own non-zero handle.", "quantifier": "every interleaving of any number of sampled allocations and frees, and every rounding of the floating-point estimates", "why_tests_cant": "A test sees a few schedules; a lost or doubled update of a counter shows only under particular interleavings and long histories.", "anchors": ["tcmalloc/allocation_sampling.h:SampleifyAllocation", "tcmalloc/allocation_sampling.h:MaybeUnsampleAllocation", "tcmalloc/span.cc:Span::Sample", "tcmalloc/span.cc:Span::Unsample"]}
{"id": "C67", "title": "Allocation profiles hold exactly the samples taken while they ran", "statement": "A profile returned by stopping an allocation profiling token lists exactly the samples taken between its start and its stop, each once and in order, however many profiles run at the same time and are started, stopped or dropped; stopping again returns nothing; and each entry is listed with a whole number of objects whose total is within half an object (and half a byte) of the estimate.", "quantifier": "every history of sampled allocations and of starts, stops and drops of profiling tokens", "why_tests_cant": "Overlapping profiles share one list; tests try two or three fixed orders.", "anchors": ["tcmalloc/allocation_sample.h:AllocationSampleList", "tcmalloc/allocation_sample.cc:AllocationSample::Stop", "tcmalloc/stack_trace_table.cc:StackTraceTable::AddTrace"]}
{"id": "C68", "title": "The peak heap profile is that of the largest sampled heap", "statement": "The peak heap profile never shrinks, holds only samples that were taken, adds up to the recorded peak, and when no allocation is under way the sampled heap is within the configured growth fraction of that peak.", "quantifier": "every history and interleaving of sampled allocations and frees", "why_tests_cant": "Whether a smaller heap can replace a larger peak depends on where threads are between two checks and a store.", "anchors": ["tcmalloc/peak_heap_tracker.cc:PeakHeapTracker::MaybeSaveSample", "tcmalloc/peak_heap_tracker.cc:PeakHeapTracker::IsNewPeak", "tcmalloc/peak_heap_tracker.cc:PeakHeapTracker::DumpSample"]}
{"id": "C69", "title": "Heap, peak-heap and allocation profiles survive being written as a profile message", "statement": "Converting a heap, peak-heap or allocation profile into a pprof message never fails a check, and decoding the message by its own string, location and mapping tables gives back exactly the profile: one sample per distinct combination of stack and attributes, with the totals of exactly the entries that have it, the call addresses of the stack in order, its labels, the header and the loaded segments. Totals over the message equal totals over the profile. Other profile types are refused.", "quantifier": "every profile with valid entries, every list of loaded segments, every residency and page-flag answer, every order in which the merged samples are visited", "why_tests_cant": "the merge, three interning tables and label order interact; tests compare a few hand-made profiles", "anchors": ["tcmalloc/internal/profile_builder.cc:MakeProfileProto", "tcmalloc/internal/profile_builder.cc:MergeProfileSamplesAndMaybeGetResidencyInfo", "tcmalloc/internal/profile_builder.cc:InternCallstack", "tcmalloc/internal/profile_builder.cc:AddCommonSampleTags"]}
{"id": "C70", "title": "Lifetime profiles and event traces survive being written as a profile message, and its tables are sound", "statement": "Converting a lifetime profile or event trace gives a message that decodes to one sample per entry, in order, counted as allocated, deallocated or censored according to the entry, with its lifetimes, places, times and handle. In every message produced, string 0 is empty, no string or address occurs twice, locations and mappings are numbered from 1, and every location names the loaded segment that contains its address, or none if no segment does.", "quantifier": "every profile with valid entries, every list of segments that do not overlap and are not empty", "why_tests_cant": "the tables are built incrementally by every sample; only an invariant over all histories shows that no index is ever wrong", "anchors": ["tcmalloc/internal/profile_builder.cc:MakeLifetimeProfileProto", "tcmalloc/internal/profile_builder.cc:InternLocation", "tcmalloc/internal/profile_builder.cc:InternString", "tcmalloc/internal/profile_builder.cc:AddMapping"]}
{"id": "C71", "title": "Reading a loaded file's build id is safe for any file contents", "statement": "While a profile is written, the build id of every loaded file is read from its note segments. Whatever bytes these hold and whatever alignment they claim, the reader ends and reads nothing outside the segments. If they hold well-formed notes, the answer is the one GNU build id in hexadecimal, or nothing if there is none or more than one.", "quantifier": "every list of note segments, all contents, sizes and alignments", "why_tests_cant": "the wrap-around checks are about 32-bit arithmetic on untrusted sizes; tests try a handful of corrupt notes", "anchors": ["tcmalloc/internal/profile_builder.cc:GetBuildId"]}
{"id": "C72", "title": "Bytes in use by the application are exact at rest", "statement": "Whenever no allocator call is in progress, the bytes reported in use by the application (generic.current_allocated_bytes, generic.bytes_in_use_by_app, mallinfo2().uordblks) are exactly the sum of the sizes of the blocks the application holds, whatever was allocated, freed, cached, moved between caches or released to the system before. While calls are in progress, every byte obtained from the system is still accounted for: it is in a live block, reported as free or cached by one of the tiers, or in the hands of one of those calls; and the bytes reported in use do not fall below the bytes of the live blocks unless a call is just then giving cached objects back.", "quantifier": "every history of allocations, frees, cache misses, refills, scavenges, drains, releases and thread ends, of any number of threads, in per-CPU and in per-thread mode, every interleaving, every set of size classes whose one-object spans have no tail", "why_tests_cant": "The figure is the difference of the system bytes and a sum over all tiers and size classes, each kept by its own counters under its own lock; a missed or doubled update anywhere shows only in some histories, and a test sees only the histories it drives.", "anchors": ["tcmalloc/global_stats.cc:ExtractStats", "tcmalloc/global_stats.cc:ExtractTCMallocStats", "tcmalloc/global_stats.cc:InUseByApp", "tcmalloc/central_freelist.h:OverheadBytes", "tcmalloc/cpu_cache.h:TotalUsedBytes", "tcmalloc/thread_cache.cc:GetStats"]}
{"id": "C73", "title": "The two property interfaces agree", "statement": "In every state, GetNumericProperty(name) and GetProperties()[name] give the same value for every name that GetProperties lists; and the fields of mallinfo2 add up: bytes in use, bytes in caches and free bytes make up the arena.", "quantifier": "every state of the allocator (every reading of its counters), every property name", "why_tests_cant": "The two functions compute the properties in separate code from separately read statistics; a test compares them for the few names and the few states it looks at.", "anchors": ["tcmalloc/global_stats.cc:GetNumericProperty", "tcmalloc/tcmalloc.cc:MallocExtension_Internal_GetProperties", "tcmalloc/tcmalloc.cc:do_mallinfo"]}
{"id": "C74", "title": "Process memory figures do not depend on how the file is read", "statement": "The memory figures of the process shown in the statistics (virtual and resident size, shared, code, data, page tables) are exactly those the kernel wrote to /proc/self/status, in bytes, however the reads cut the file into pieces and however many lines of other text there are, also lines longer than the reader's buffer; they are reported as present exactly if every one of them is there; and the reader always gets through the whole file.", "quantifier": "every contents of the file made of key-number lines and other lines, every sequence of read sizes", "why_tests_cant": "Where a read ends is up to the kernel; a line, a number or the unit may be cut at any byte, and tests try a handful of cuts.", "anchors": ["tcmalloc/internal/memory_stats.cc:GetMemoryStatsFromStatus", "tcmalloc/internal/memory_stats.h:MemoryStats"]}
{"id": "C75", "title": "Treatments pick the best hugepages", "statement": "A round of hugepage treatment never fails while choosing hugepages; it looks at no more than 64 of them for collapsing, all of them eligible (not known to be backed by a huge page and not examined in the last five minutes); an eligible one is left out only if 64 were chosen and it has no more objects than any of them; it renames no more than 64 sampled hugepages, all due, and leaves a due one out only if 64 were chosen. Exactly the chosen hugepages are kept from being freed meanwhile.", "quantifier": "every reachable state of the filler, every age of the recorded information, every correct implementation of the standard heap functions", "why_tests_cant": "The eviction path of the selection runs only with more than 64 eligible hugepages, and what is chosen depends on the order of eight arrays of lists; a test sees a few of the orders.", "anchors": ["tcmalloc/huge_page_treatment.h:SelectEligibleTrackers", "tcmalloc/huge_page_treatment.h:PushCandidate", "tcmalloc/huge_page_filler.h:TreatHugepageTrackers"]}
{"id": "C76", "title": "Collapsing is limited, accounted for and undisturbed", "statement": "The kernel is asked to collapse exactly those examined hugepages that are not backed by a huge page, pass the limits on swapped and unbacked pages and have no page returned to the system, up to the first attempt in a round that takes too long; every attempt is counted once as a success or as one kind of error, and the totals over any history are exact. After slow rounds collapsing is skipped for a number of rounds that doubles up to 128 and halves again after fast ones, so of any 128 rounds in which collapsing is enabled at least one tries. While the kernel collapses a hugepage no page of it is returned to the system, and a round always completes.", "quantifier": "every list of examined hugepages, every answer and duration of the kernel, every history of rounds, every interleaving of allocations, frees and releases with a collapse", "why_tests_cant": "The outcome depends on the kernel's answers and timing, which tests fake for a few cases; the back-off counters depend on the whole history.", "anchors": ["tcmalloc/huge_page_treatment.h:Treat", "tcmalloc/huge_page_tracker.h:Collapse", "tcmalloc/huge_page_filler.h:ShouldBackoffFromCollapse", "tcmalloc/huge_page_filler.h:UpdateMaxBackoffDelay"]}
{"id": "C77", "title": "Zero bytes in heap profiles", "statement": "For every sampled allocation, the analysis behind the zero-byte figure of heap profiles looks only at bytes of the allocation that are in memory: the first of them in address order, as many as its buffer holds; it neither reads anything else nor overruns the buffer, however the pages are scattered; it gives up only if the kernel refuses to copy. The figure never exceeds the size analysed, is the whole of it if every sampled byte is zero, and if the whole allocation can be examined it is the number of its bytes that read as zero (pages without memory included), to within one byte.", "quantifier": "every address, size, page size, residency of pages, memory contents and buffer size; every answer of the kernel to requests to copy", "why_tests_cant": "The runs of resident pages, the cut at the buffer's end, the batches of 64 copies and the rounding of the ratio combine in ways a fuzz test with a few hundred bytes only samples; and which pages are resident is up to the kernel.", "anchors": ["tcmalloc/internal/compressibility.cc:CopyResidentPages", "tcmalloc/internal/compressibility.cc:EstimateZeroBytes", "tcmalloc/internal/util.cc:SafeCopyMemory", "tcmalloc/internal/profile_builder.cc:MergeProfileSamplesAndMaybeGetResidencyInfo"]}
{"id": "C78", "title": "Interrupted and split system calls neither lose nor repeat bytes", "statement": "Reading through the signal-ignoring wrapper stores the next bytes of the file, each once and in order, touches nothing else of the buffer and loses nothing taken from the file, however the kernel splits and interrupts the read; a regular file yields all that was asked for or all there is; an interruption is never reported as a failure. Writing passes on each byte once and in order and reports how many; polling reports the first event, never sleeps longer than its timeout and reports silence only after it; opening retries with the same arguments.", "quantifier": "all file contents, buffers, counts, timeouts and sequences of kernel answers", "why_tests_cant": "signals and short transfers can fall between any two system calls", "anchors": ["tcmalloc/internal/util.cc:signal_safe_read", "tcmalloc/internal/util.cc:signal_safe_write", "tcmalloc/internal/util.cc:signal_safe_poll", "tcmalloc/internal/util.cc:signal_safe_open"]}
{"id": "C79", "title": "Signal-ignoring wrappers return what the calls they wrap would", "statement": "A write through the signal-ignoring wrapper returns the number of bytes written, and closing a descriptor closes it, reports success and leaves the descriptors of other threads open.", "quantifier": "all buffers, sequences of kernel answers and interleavings with other threads opening files", "why_tests_cant": "it takes a short write, or a signal during close and another thread that gets the same descriptor", "anchors": ["tcmalloc/internal/util.cc:signal_safe_write", "tcmalloc/internal/util.cc:signal_safe_close", "tcmalloc/internal/percpu.cc:TC_CHECK_EQ"]}
{"id": "C80", "title": "Background maintenance keeps its schedule", "statement": "A pass of the background thread runs a maintenance action just when the action is enabled and its period (a fixed number of sleep intervals) has passed on the clock since the last pass that ran it or since the start; the actions of a pass run in the order from the CPU caches to the page heap, each at most once; every pass takes back idle objects of the sharded caches and, with per-CPU caches, forgets which CPUs were in use.", "quantifier": "all histories of passes with any clock readings (also backwards), sleep intervals and switches", "why_tests_cant": "it depends on the whole history of clock readings and parameter changes", "anchors": ["tcmalloc/background.cc:MallocExtension_Internal_ProcessBackgroundActions", "tcmalloc/parameters.cc:background_process_sleep_interval_ns"]}
{"id": "C81", "title": "Background release follows the release rate", "statement": "A pass of the background thread asks for the memory that the release rate comes to over the time since the last pass, capped at the largest request, and for nothing if the clock went back; over any time without setbacks the requests add up to the rate times the time, short by less than a byte per pass.", "quantifier": "all release rates a user can set, all clock readings and histories of passes", "why_tests_cant": "only extreme rates or clock steps reach the ends of the number ranges", "anchors": ["tcmalloc/background.cc:MallocExtension_Internal_ProcessBackgroundActions", "tcmalloc/malloc_extension.h:SetBackgroundReleaseRate"]}
{"id": "C82", "title": "The allocator keeps to the memory it was given", "statement": "In every history the allocator, and users that use it correctly, change no byte outside the memory the system has handed to it: the rest of the address space keeps its contents. Every byte of every block in use lies in that memory, and only such memory is ever given back to the system. Guarded allocations live in the same address space: they share no byte with any other block in use, the heap never touches the guarded region nor the guarded allocator anything else, and a free tells the two kinds apart by the address.", "quantifier": "all histories of all parts of the heap (any threads, CPUs, classes, tags, background work, interleavings, answers of the system), all words of memory; all moments at which guarded sampling starts, all its histories", "why_tests_cant": "A stray write hits whatever happens to be mapped there; a test sees only the memory it looks at, in the histories it runs", "anchors": ["tcmalloc/tcmalloc.cc", "tcmalloc/central_freelist.h", "tcmalloc/span.cc", "tcmalloc/huge_page_aware_allocator.h", "tcmalloc/guarded_page_allocator.cc", "tcmalloc/guarded_page_allocator.h", "tcmalloc/internal/system_allocator.h"]}
{"id": "C83", "title": "A setting reads back as it was last set", "statement": "For every run-time setting with a setter and a getter (sampling intervals, cache sizes, background work, release rate, intervals, memory limits), and for all calls of them from any number of threads, a getter returns the value the setting was last given (refused values apart, 0 as 'no limit', durations cut to nanoseconds, the soft limit held down by the hard one), or its documented starting value if it was given none; the initialisation made on first access never undoes a set; the thread-cache limit in effect is the one that reads back; the partitioning and subrelease variables decide exactly as documented.", "quantifier": "all histories of concurrent setters, getters and allocations, all values of each setter's type, all builds and environments", "why_tests_cant": "the first access initialises the setting while other threads may be setting it, and the allocator's own start-up writes some of them: a race in one of many orders, which a test of a process that has long started cannot show", "anchors": ["tcmalloc/parameters.cc:TCMalloc_Internal_SetMaxTotalThreadCacheBytes", "tcmalloc/parameters.cc:heap_partitioning_mode_ptr", "tcmalloc/parameters.h:Parameters", "tcmalloc/static_vars.cc:SlowInitIfNecessary", "tcmalloc/tcmalloc.cc:MallocExtension_Internal_SetMemoryLimit", "tcmalloc/page_allocator.h:set_limit", "tcmalloc/thread_cache.cc:set_overall_thread_cache_size"]}
{"id": "C84", "title": "A program's own fault handlers go on working, and faults in guarded memory are reported", "statement": "With guarded sampling activated, a SIGSEGV or SIGTRAP ends as it would without the allocator: the program's handler is called with the arguments it asked for, or the process ends, or the signal is ignored. Before that, a fault next to a live guarded object is reported as a buffer underflow or overflow of it, a fault on a freed one as a use after free, each as a read or write as the processor says, and no other fault is reported.", "quantifier": "every pair of actions the program has set up; every sequence of signals, calls of sigaction by the program and steps of the activation, in any interleaving; every reachable state of the guarded pages", "why_tests_cant": "Tests install one handler and fault once; faults during activation, alternate stacks, one-shot handlers and ignored faults are not tried.", "anchors": ["tcmalloc/segv_handler.cc:SegvHandler", "tcmalloc/segv_handler.cc:ForwardSignal", "tcmalloc/segv_handler.cc:MallocExtension_Internal_ActivateGuardedSampling"]}
{"id": "C85", "title": "The counts of limit hits and the peak usage are exact", "statement": "The reported number of soft (hard) limit hits is the number of checks that found the memory in use above the soft (hard) limit in force; successes are counted exactly for the attempts that reported enough, never more than hits; the peak is the highest usage any check found, with the application's bytes as they were when it was first found; and no internal check on these counts fails.", "quantifier": "every life of a process: any reachable heaps between checks, any allocations, any limits set in any order, any answers of the kernel", "why_tests_cant": "The counts depend on the whole history; tests look at a few hits of one limit.", "anchors": ["tcmalloc/page_allocator.cc:ShrinkToUsageLimit", "tcmalloc/page_allocator.h:set_limit", "tcmalloc/tcmalloc.cc:MallocExtension_Internal_GetProperties"]}
{"id": "C86", "title": "Debug checks of sized frees raise no false alarm and miss no oversize", "statement": "In a build with assertions, a sized free of a live block with the size last requested for it and through the family it came from passes the size and alignment checks. A sized free with more bytes than the block has is reported, and the report gives the sizes that would have been right, among them the one requested.", "quantifier": "Every shipped build, size-class table, entry-point family, partition, size, alignment and history of allocations, reallocations, frees and writes; every wrong size.", "why_tests_cant": "Whether a check misfires depends on the size-class table, the alignment, the partition and the history of a block together; tests try a few sizes per table.", "anchors": ["tcmalloc/tcmalloc.cc:CorrectSize", "tcmalloc/tcmalloc.cc:CorrectAlignment", "tcmalloc/tcmalloc.cc:do_free_with_size", "tcmalloc/sizemap.h:class_to_size_range"]}
{"id": "C87", "title": "The record of a crash says what happened", "statement": "When the allocator stops a program because of a bad free, the record it leaves for crash handlers names the pointer, the kind of error, the sizes, alignments or families involved, and the stacks of the allocation and of the free as far as they are known, and nothing that belongs to another error.", "quantifier": "every kind of error, every pointer, size, alignment and stack, and every sequence of errors reported before the process is gone", "why_tests_cant": "Death tests check one report per process with short stacks; stale fields show only when two threads fail together, and the shift that computes the alignment depends on every bit of the address.", "anchors": ["tcmalloc/internal/gwp_asan_state.h:GwpAsanState", "tcmalloc/error_reporting.cc:ReportMismatchedDelete", "tcmalloc/error_reporting.cc:ReportCorruptedFree", "tcmalloc/error_reporting.cc:ReportMismatchedFree"]}
{"id": "C88", "title": "A setting in the environment is read under exactly its name", "statement": "A switch of the allocator set in the environment takes effect as documented: the value used is that of the first entry with exactly that name, no variable with a longer, shorter or similar name has any effect, no byte outside the environment's strings is read, and an unset switch gives the default.", "quantifier": "every environment (any number of entries, with or without an equals sign, of any length), every name and every value", "why_tests_cant": "Tests set one or two variables; names that are prefixes of others, entries without a value and strings at the end of memory are found only by looking at all environments.", "anchors": ["tcmalloc/internal/environment.cc:thread_safe_getenv", "tcmalloc/huge_page_aware_allocator.cc:decide_subrelease", "tcmalloc/huge_page_aware_allocator.cc:use_huge_region_more_often", "tcmalloc/parameters.cc:heap_partitioning_mode_ptr"]}
