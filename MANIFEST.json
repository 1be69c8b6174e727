{
 "claims": [
  {
   "property": "C01",
   "status": "proved",
   "theorems": [
    "Verif.Heap.live_blocks_disjoint",
    "Verif.Heap.contents_kept",
    "Verif.Heap.live_exact",
    "Verif.Heap.returned_fresh",
    "Verif.Heap.step_defined",
    "Verif.Heap.JReach.refines",
    "Verif.Heap.user_blocks_disjoint",
    "Verif.Heap.user_bytes_kept",
    "Verif.Frontend.live_blocks_disjoint",
    "Verif.Frontend.contents_kept",
    "Verif.ThreadHeap.live_blocks_disjoint",
    "Verif.ThreadHeap.contents_kept",
    "Verif.ThreadHeap.cached_kept",
    "Verif.ThreadHeap.live_exact",
    "Verif.ThreadHeap.returned_fresh",
    "Verif.ThreadHeap.step_defined",
    "Verif.Process.blocks_disjoint",
    "Verif.Process.free_routed",
    "Verif.ThreadProcess.blocks_disjoint",
    "Verif.ThreadProcess.free_routed",
    "Verif.ThreadHeap.JReach.refines",
    "Verif.ThreadHeap.user_blocks_disjoint",
    "Verif.ThreadHeap.user_bytes_kept"
   ],
   "note": "Per-CPU mode: per-CPU caches, transfer caches, central free lists, spans and page heaps of all classes and tags composed into one machine over one memory (Verif/Heap), every lock region and restartable-sequence step interleaved freely. Bridge.lean runs the entry points on this machine and proves the back-end contract (Ans.OK) instead of assuming it. Per-thread mode: the same with the per-thread caches in front (Verif/ThreadHeap), entry points included (ThreadHeap/Bridge.lean). Guarded allocations: Process.blocks_disjoint."
  },
  {
   "property": "C02",
   "status": "proved",
   "theorems": [
    "Verif.Frontend.allocation_correct",
    "Verif.Frontend.allocation_failure",
    "Verif.Frontend.live_block_size",
    "Verif.SizeMap.class_at_least_requested",
    "Verif.Heap.user_block_size",
    "Verif.ThreadHeap.user_block_size"
   ],
   "note": "Every entry point, table, partition, hint, size and history; the back end's answers range over everything its contract allows. The two user_block_size are about the entry points on the composed heaps (per-CPU and per-thread)."
  },
  {
   "property": "C03",
   "status": "proved",
   "theorems": [
    "Verif.Frontend.allocation_correct",
    "Verif.Frontend.memalign_correct",
    "Verif.SizeMap.class_blocks_aligned"
   ],
   "note": "Every entry point, alignment and size. Alignments above 2 MiB abort instead (see C09)."
  },
  {
   "property": "C04",
   "status": "proved",
   "theorems": [
    "Verif.SizeMap.init_succeeds_iff",
    "Verif.SizeMap.class_is_tightest",
    "Verif.SizeMap.large_iff"
   ],
   "note": "All shipped build configurations, every accepted table, every policy and size."
  },
  {
   "property": "C05",
   "status": "proved",
   "theorems": [
    "Verif.SizeMap.shipped_tables_valid",
    "Verif.SizeMap.accepted_table_wellformed"
   ],
   "note": "All 32 shipped tables, checked whole by the kernel; plus what acceptance guarantees."
  },
  {
   "property": "C06",
   "status": "proved",
   "theorems": [
    "Verif.Frontend.sized_and_unsized_free_agree",
    "Verif.Frontend.legal_free_succeeds",
    "Verif.SizeMap.sized_free_same_class"
   ],
   "note": "Every allocation (cached, sampled, guarded, large) and every size the caller may pass."
  },
  {
   "property": "C07",
   "status": "proved",
   "theorems": [
    "Verif.Frontend.mul_overflow_exact",
    "Verif.Frontend.calloc_correct",
    "Verif.Frontend.reallocArray_correct"
   ],
   "note": "All 64-bit operands."
  },
  {
   "property": "C08",
   "status": "proved",
   "theorems": [
    "Verif.Frontend.realloc_correct",
    "Verif.Frontend.realloc_null",
    "Verif.Frontend.realloc_zero"
   ],
   "note": "Every reachable heap, block, size; failure branch included."
  },
  {
   "property": "C09",
   "status": "partial",
   "theorems": [
    "Verif.Frontend.hasSingleBit_iff",
    "Verif.Frontend.alignedAlloc_correct",
    "Verif.Frontend.posixMemalign_correct",
    "Verif.Frontend.pvalloc_rounds",
    "Verif.Frontend.pvalloc_wraps",
    "Verif.Frontend.alignedAlloc_huge_alignment_aborts"
   ],
   "note": "False of the code in two corners, proved as such: pvalloc near SIZE_MAX wraps to 0, and power-of-two alignments above 2 MiB abort the process instead of failing."
  },
  {
   "property": "C10",
   "status": "partial",
   "theorems": [
    "Verif.Frontend.nallocx_exact_partial",
    "Verif.Frontend.nallocx_zero_overaligned"
   ],
   "note": "Exact for every family and partition; false for size 0 with alignment above the page size (proved)."
  },
  {
   "property": "C11",
   "status": "proved",
   "theorems": [
    "Verif.PageMap.lookup_exact",
    "Verif.PageMap.unchecked_lookup_exact",
    "Verif.PageMap.ensure_exact",
    "Verif.PageMap.next_page_exact",
    "Verif.PageMap.shipped_ok"
   ],
   "note": "every lookup after every history equals a plain page-indexed view; growth changes no lookup and makes the range usable for good; first-later-page scan exact"
  },
  {
   "property": "C12",
   "status": "proved",
   "theorems": [
    "Verif.RangeTracker.tracker_exact",
    "Verif.RangeTracker.find_best_fit",
    "Verif.RangeTracker.unmark_live",
    "Verif.RangeTracker.empty_when_all_returned"
   ],
   "note": "Word-level bitmap model and RangeTracker, every N and every history of FindAndMark/Mark/Unmark/Clear; Count overflow proved impossible."
  },
  {
   "property": "C13",
   "status": "proved",
   "theorems": [
    "Verif.Heap.live_never_released",
    "Verif.ThreadHeap.live_never_released",
    "Verif.PageHeap.live_never_released",
    "Verif.PageHeap.live_never_leaving",
    "Verif.HugeCache.owned_never_unbacked",
    "Verif.PageTracker.releaseFree_exact",
    "Verif.Filler.releasePages_exact",
    "Verif.Filler.treatEnd_exact",
    "Verif.HugeRegion.put_exact",
    "Verif.HugeRegion.releasePages_exact"
   ],
   "note": "Proved for users' blocks in the composed heap (per-CPU and per-thread mode), for the whole page heap at every step of every history, and for each component."
  },
  {
   "property": "C14",
   "status": "proved",
   "theorems": [
    "Verif.PageTracker.accounting_exact",
    "Verif.PageTracker.get_exact",
    "Verif.PageTracker.longestFree_exact",
    "Verif.PageTracker.put_exact",
    "Verif.PageTracker.releaseFree_exact",
    "Verif.PageTracker.releaseFree_all",
    "Verif.PageTracker.markSubreleased_exact",
    "Verif.PageTracker.spanRuns_exact"
   ],
   "note": "One hugepage's tracker, any history of allocations, frees, releases with arbitrary kernel answers, and residency marks."
  },
  {
   "property": "C15",
   "status": "proved",
   "theorems": [
    "Verif.Filler.accounting_exact",
    "Verif.Filler.on_its_list",
    "Verif.Filler.released_books_exact",
    "Verif.Filler.spanStats_exact",
    "Verif.Filler.releasePages_exact"
   ],
   "note": "All histories of contribute, TryGet, Put (split around the kernel call), ReleasePages, treatments; all kernel answers. Totals equal sums over hugepages with live runs; no underflow; every hugepage on exactly the list its state calls for."
  },
  {
   "property": "C16",
   "status": "proved",
   "theorems": [
    "Verif.Filler.put_exact",
    "Verif.Filler.putAnswer_exact",
    "Verif.Filler.fetch_exact",
    "Verif.Filler.tryGet_exact",
    "Verif.Filler.contribute_exact",
    "Verif.Filler.treatEnd_exact",
    "Verif.Filler.ownership"
   ],
   "note": "A hugepage is yielded iff its last run was freed and no treatment holds it (after the kernel answered for a partially released one); otherwise it is kept aside and fetched once after the treatment."
  },
  {
   "property": "C17",
   "status": "proved",
   "theorems": [
    "Verif.HugeAddressMap.map_exact",
    "Verif.HugeAddressMap.map_step_defined",
    "Verif.HugeAddressMap.predecessor_exact",
    "Verif.HugeAddressMap.iteration_exact",
    "Verif.HugeAddressMap.heap_ordered"
   ],
   "note": "Treap of hugepage ranges: for every history of Insert/Remove the ranges are exactly the maximal runs of the inserted-minus-removed set."
  },
  {
   "property": "C18",
   "status": "proved",
   "theorems": [
    "Verif.HugeAllocator.conservation",
    "Verif.HugeAllocator.get_exact",
    "Verif.HugeAllocator.release_exact",
    "Verif.HugeAllocator.contains_exact"
   ],
   "note": "Every history of Get/Release with any well-behaved system allocator."
  },
  {
   "property": "C19",
   "status": "proved",
   "theorems": [
    "Verif.HugeCache.conservation",
    "Verif.HugeCache.step_defined",
    "Verif.HugeCache.get_exact",
    "Verif.HugeCache.take_exact",
    "Verif.HugeCache.unbacked_exact",
    "Verif.HugeCache.limit_ge",
    "Verif.HugeCache.releaseCached_exact",
    "Verif.HugeCache.release_exact"
   ],
   "note": "All interleavings at the points where unbacking drops the lock, all kernel answers, all tracker readings."
  },
  {
   "property": "C20",
   "status": "proved",
   "theorems": [
    "Verif.HugeRegion.region_exact",
    "Verif.HugeRegion.regions_disjoint",
    "Verif.HugeRegion.set_exact",
    "Verif.HugeRegion.get_exact",
    "Verif.HugeRegion.put_exact",
    "Verif.HugeRegion.put_other",
    "Verif.HugeRegion.releasePages_exact",
    "Verif.HugeRegion.spanStats_exact"
   ],
   "note": "Whole of huge_region.h except printing. Unback keeps the lock, so each call is one step; the kernel may refuse any call."
  },
  {
   "property": "C21",
   "status": "proved",
   "theorems": [
    "Verif.PageHeap.runs_disjoint",
    "Verif.PageHeap.step_defined",
    "Verif.PageHeap.new_exact",
    "Verif.PageHeap.newAligned_exact",
    "Verif.PageHeap.refill_exact",
    "Verif.PageHeap.conservation",
    "Verif.PageHeap.donation_exact",
    "Verif.PageHeap.pageStatus_exact"
   ],
   "note": "Whole HPAA composed of the verified cache, filler and regions; every interleaving of waiting calls."
  },
  {
   "property": "C22",
   "status": "proved",
   "theorems": [
    "Verif.PageHeap.stats_exact",
    "Verif.PageHeap.stats_quiet",
    "Verif.PageHeap.release_exact"
   ],
   "note": "Exact at every moment with the hugepages of waiting calls as an explicit term; exact without it when nothing waits."
  },
  {
   "property": "C23",
   "status": "proved",
   "theorems": [
    "Verif.Span.span_state_exact",
    "Verif.Span.span_pop_exact",
    "Verif.Span.span_build_exact",
    "Verif.Span.span_push_exact",
    "Verif.Span.span_pages_exact",
    "Verif.Span.accepted_class_span_ok"
   ],
   "note": "All histories of build/pop/push (both overloads)/user writes, both encodings, both builds; geometry hypothesis discharged for every accepted table."
  },
  {
   "property": "C24",
   "status": "proved",
   "theorems": [
    "Verif.Span.object_index_exact",
    "Verif.Span.object_index_injective",
    "Verif.Span.accepted_class_span_ok"
   ],
   "note": "Multiply-shift division exact for every object of every accepted class; 16-bit index never overflows nor equals the end mark."
  },
  {
   "property": "C25",
   "status": "proved",
   "theorems": [
    "Verif.CentralFreeList.step_defined",
    "Verif.CentralFreeList.objects_disjoint",
    "Verif.CentralFreeList.no_idle_span",
    "Verif.CentralFreeList.insert_exact",
    "Verif.CentralFreeList.remove_exact",
    "Verif.CentralFreeList.populate_exact",
    "Verif.CentralFreeList.findable_exact",
    "Verif.CentralFreeList.fullest_first",
    "Verif.CentralFreeList.stats_exact",
    "Verif.CentralFreeList.contents_kept",
    "Verif.CentralFreeList.shipped_dense_one_page"
   ],
   "note": "All classes, callers and interleavings of the default build. stats_exact and findable_exact are about classes with more than one object per span; classes with one object per span bypass lists and counters."
  },
  {
   "property": "C26",
   "status": "proved",
   "theorems": [
    "Verif.TransferCache.step_defined",
    "Verif.TransferCache.conserved",
    "Verif.TransferCache.within_capacity",
    "Verif.TransferCache.insert_exact",
    "Verif.TransferCache.remove_exact",
    "Verif.TransferCache.insert_remove",
    "Verif.TransferCache.land_exact",
    "Verif.TransferCache.plunder_exact",
    "Verif.TransferCache.low_water_exact",
    "Verif.TransferCache.shrink_exact",
    "Verif.TransferCache.grow_exact",
    "Verif.TransferCache.contents_kept",
    "Verif.TransferCache.capacity_needed",
    "Verif.TransferCache.resize_exact",
    "Verif.TransferCache.shrink_cap",
    "Verif.TransferCache.hasSpare_exact",
    "Verif.TransferCache.large_capacity",
    "Verif.TransferCache.resize_bytes_grow"
   ],
   "note": "Any number of callers, shards, plunders and resizes interleaved at every locked section; refines the central free list model (C25). Which classes are resized and their misses are arbitrary. Byte budget is not kept by the code (resize_bytes_grow); the batch budget is."
  },
  {
   "property": "C27",
   "status": "proved",
   "theorems": [
    "Verif.Slab.step_defined",
    "Verif.Slab.bounded",
    "Verif.Slab.exclusive",
    "Verif.Slab.act_effect",
    "Verif.Slab.pop_lifo",
    "Verif.Slab.others_leave_alone",
    "Verif.Slab.conserved",
    "Verif.Slab.in_one_place",
    "Verif.Slab.drain_empties",
    "Verif.Slab.nothing_left",
    "Verif.Slab.layout"
   ],
   "note": "Instruction-level model of push, pop, batches, grow, caching of the pointer, fences, drain, shrink/grow by other CPUs, resize and release; every schedule. Kernel rseq contract and sequential consistency trusted."
  },
  {
   "property": "C28",
   "status": "proved",
   "theorems": [
    "Verif.CpuCache.step_defined",
    "Verif.CpuCache.budget_exact",
    "Verif.CpuCache.budgets_conserved",
    "Verif.CpuCache.budget_at_rest",
    "Verif.CpuCache.cached_le",
    "Verif.CpuCache.cached_bounded"
   ],
   "note": "Every interleaving at the granularity of single slab instructions and single counter accesses. Witnesses in CpuCache/Story.lean."
  },
  {
   "property": "C29",
   "status": "proved",
   "theorems": [
    "Verif.CpuCache.target_bounds",
    "Verif.CpuCache.refill_exact",
    "Verif.CpuCache.overflow_exact",
    "Verif.CpuCache.fetched_recorded",
    "Verif.CpuCache.refill_recorded",
    "Verif.CpuCache.overflow_recorded",
    "Verif.CpuCache.conserved",
    "Verif.CpuCache.user_exact",
    "Verif.CpuCache.user_within"
   ],
   "note": "The recorded theorems tie the ghost records to the layer below and to the slab contents."
  },
  {
   "property": "C30",
   "status": "proved",
   "theorems": [
    "Verif.ThreadCache.step_defined",
    "Verif.ThreadCache.size_exact",
    "Verif.ThreadCache.stats_exact",
    "Verif.ThreadCache.conserved",
    "Verif.ThreadCache.in_one_place",
    "Verif.ThreadCache.user_exact",
    "Verif.ThreadCache.free_malloc",
    "Verif.ThreadCache.batches",
    "Verif.ThreadCache.list_bounded",
    "Verif.ThreadCache.limits_conserved",
    "Verif.ThreadCache.overall_kept",
    "Verif.ThreadCache.increase_exact",
    "Verif.ThreadCache.delete_exact",
    "Verif.ThreadCache.call_ends",
    "Verif.ThreadCache.headroom_trick",
    "Verif.ThreadCache.shipped_ok"
   ],
   "note": "Any number of thread caches, all interleavings of their steps, arbitrary answers of the transfer cache, non-negative overall limits (negative ones: C46). The byte size is exact except while a release is under way, when it still counts the batches already given away."
  },
  {
   "property": "C31",
   "status": "proved",
   "theorems": [
    "Verif.Arena.step_defined",
    "Verif.Arena.clients_disjoint",
    "Verif.Arena.alloc_exact",
    "Verif.Arena.asked_needed",
    "Verif.Arena.new_exact",
    "Verif.Arena.delete_new",
    "Verif.Arena.contents_kept",
    "Verif.Arena.stats_exact"
   ],
   "note": "Memory-level model of Arena::Alloc and of MetadataObjectAllocator; every reachable state, every client write."
  },
  {
   "property": "C32",
   "status": "proved",
   "theorems": [
    "Verif.PageAllocator.within_limit",
    "Verif.PageAllocator.over_limit",
    "Verif.PageAllocator.abort_justified",
    "Verif.PageAllocator.set_limit",
    "Verif.PageAllocator.shrinkHardBy_attempt",
    "Verif.PageAllocator.preference"
   ],
   "note": "over the composed page-heap model, for every reachable state of all heaps, limits, kernel answers; the check is run without other threads in between"
  },
  {
   "property": "C33",
   "status": "partial",
   "theorems": [
    "Verif.PageAllocator.release_exact_partial",
    "Verif.PageAllocator.release_exact_without_credit",
    "Verif.PageAllocator.release_not_exact",
    "Verif.PageAllocator.release_leaves_region",
    "Verif.PageAllocator.trim_returns_zero",
    "Verif.PageHeap.heap_release",
    "Verif.PageHeap.heap_break"
   ],
   "note": "exact but for pages returned earlier and reported later; false without that proviso (release_not_exact), and regions may keep free hugepages (release_leaves_region)"
  },
  {
   "property": "C34",
   "status": "proved",
   "theorems": [
    "Verif.Guarded.slots_exclusive",
    "Verif.Guarded.calls_succeed",
    "Verif.Guarded.objects_placed",
    "Verif.Guarded.access_exact",
    "Verif.Guarded.guards_fault",
    "Verif.Guarded.guard_adjacent",
    "Verif.Guarded.nearest_slot",
    "Verif.Guarded.size_known"
   ],
   "note": "all histories with any number of calls in progress; witnesses in Guarded/Story.lean"
  },
  {
   "property": "C35",
   "status": "proved",
   "theorems": [
    "Verif.Sampler.sampled_exactly",
    "Verif.Sampler.fast_slow_agree",
    "Verif.Sampler.counter_in_range",
    "Verif.Sampler.prediction",
    "Verif.Sampler.interval_one_samples_all",
    "Verif.Sampler.interval_zero_samples_none",
    "Verif.Sampler.weights_account_for_bytes",
    "Verif.Sampler.back_within",
    "Verif.Sampler.calls_succeed",
    "Verif.Sampler.first_huge_request_stops_sampling",
    "Verif.Sampler.max_request_not_counted",
    "Verif.Sampler.signed_overflow",
    "Verif.Sampler.negative_interval_weight"
   ],
   "note": "All sequences of sizes below 2^63, interval settings and draws; the last four theorems show what happens outside these bounds. The random number generator is an arbitrary draw."
  },
  {
   "property": "C36",
   "status": "proved",
   "theorems": [
    "Verif.MemoryTag.tag_is_address_range",
    "Verif.MemoryTag.tags_distinct",
    "Verif.MemoryTag.normal_exact",
    "Verif.MemoryTag.sampled_exact",
    "Verif.MemoryTag.tag_of_interior",
    "Verif.MemoryTag.partition_roundtrip",
    "Verif.MemoryTag.fast_free_test",
    "Verif.MemoryTag.cold_free_test",
    "Verif.MemoryTag.route_by_tag",
    "Verif.SizeMap.partitions_never_share_class"
   ],
   "note": "All 48-bit addresses."
  },
  {
   "property": "C37",
   "status": "proved",
   "theorems": [
    "Verif.SystemAlloc.allocate_ok",
    "Verif.SystemAlloc.whole_hugepages",
    "Verif.SystemAlloc.mmapAligned_ok",
    "Verif.SystemAlloc.returned_disjoint",
    "Verif.SystemAlloc.returned_recorded",
    "Verif.SystemAlloc.calls_succeed",
    "Verif.SystemAlloc.too_large",
    "Verif.SystemAlloc.allocate_succeeds",
    "Verif.SystemAlloc.unmapped_if_no_region",
    "Verif.SystemAlloc.arena_assumption",
    "Verif.SystemAlloc.huge_assumption",
    "Verif.SystemAlloc.documented_bound_too_large",
    "Verif.SystemAlloc.leak_if_unprotect_fails"
   ],
   "note": "For all sequences of Allocate, MmapAligned and SetRegionFactory, all kernel answers and random numbers. The kernel never maps over an existing mapping; program-installed factories keep their documented contract."
  },
  {
   "property": "C38",
   "status": "proved",
   "theorems": [
    "Verif.LinkedList.list_exact",
    "Verif.LinkedList.list_steps",
    "Verif.LinkedList.popBatch_too_many",
    "Verif.LinkedList.tlist_exact",
    "Verif.LinkedList.tlist_steps",
    "Verif.LinkedList.tlist_misuse"
   ],
   "note": "Both intrusive lists on explicit pointer memory; any number of lists sharing elements."
  },
  {
   "property": "C39",
   "status": "proved",
   "theorems": [
    "Verif.HintedLists.index_exact",
    "Verif.HintedLists.least_exact",
    "Verif.HintedLists.steps_exact",
    "Verif.HintedLists.iter_exact"
   ],
   "note": "Any history of add/remove/move/get-least, any number of lists."
  },
  {
   "property": "C40",
   "status": "proved",
   "theorems": [
    "Verif.TimeSeries.epoch_exact",
    "Verif.TimeSeries.power_of_two_epoch",
    "Verif.TimeSeries.max_exact",
    "Verif.TimeSeries.min_exact",
    "Verif.TimeSeries.extremes_bracket_latest",
    "Verif.TimeSeries.reports_succeed",
    "Verif.TimeSeries.peak_exact",
    "Verif.TimeSeries.trend_exact",
    "Verif.TimeSeries.trend_clamped",
    "Verif.TimeSeries.demand_exact",
    "Verif.TimeSeries.min_free_exact",
    "Verif.TimeSeries.requirement_covers_usage",
    "Verif.TimeSeries.decision_exact"
   ],
   "note": "For epoch lengths (in ticks) that are not a power of two; the case of a power of two is shown to fail. Intervals of at most as many epochs as slots."
  },
  {
   "property": "C41",
   "status": "proved",
   "theorems": [
    "Verif.Bitmap.setRange_exact",
    "Verif.Bitmap.find_first",
    "Verif.Bitmap.find_last",
    "Verif.Bitmap.count_exact",
    "Verif.Bitmap.single_bit_exact",
    "Verif.Bitmap.popBatch_lowest",
    "Verif.Bitmap.clearLowest_exact",
    "Verif.Bitmap.bitwise_exact",
    "Verif.Bitmap.scale_contract",
    "Verif.Bitmap.scale_expand"
   ],
   "note": "Word-level model; CopyBits not modelled."
  },
  {
   "property": "C42",
   "status": "partial",
   "theorems": [
    "Verif.Frontend.sized_free_after_realloc_partial",
    "Verif.Frontend.realloc_then_sized_free_misroutes"
   ],
   "note": "False of the code when a block aligned beyond a page is realloc'ed in place (witness proved); proved for every other history."
  },
  {
   "property": "C43",
   "status": "proved",
   "theorems": [
    "Verif.Frontend.wrong_sized_free_reported",
    "Verif.Frontend.wrong_family_free_reported"
   ],
   "note": "Sampled large blocks freed with a wrong small size are outside the statement: the code does not detect them."
  },
  {
   "property": "C44",
   "status": "partial",
   "theorems": [
    "Verif.PageMap.allocated_spans_exact_partial",
    "Verif.PageMap.freed_span_still_listed"
   ],
   "note": "exact when no stale descriptor entry exists; witness that the code keeps such entries after freeing a multi-page span, so the unconditional claim is false"
  },
  {
   "property": "C45",
   "status": "partial",
   "theorems": [
    "Verif.CpuCache.release_check_partial",
    "Verif.CpuCache.release_check_fails"
   ],
   "note": "False of the code as stated: release_check_fails is a reachable state in which the check fails. Proved: the check holds if no thread has bytes of the CPU's budget in hand."
  },
  {
   "property": "C46",
   "status": "partial",
   "theorems": [
    "Verif.ThreadCache.limit_accepted_partial",
    "Verif.ThreadCache.negative_limit_fails"
   ],
   "note": "Proved for limits that are not negative; a negative limit before any cache exists makes the next allocation of a thread fail an assertion or read through a null pointer (negative_limit_fails)."
  },
  {
   "property": "C47",
   "status": "partial",
   "theorems": [
    "Verif.PageAllocator.limit_kept_partial",
    "Verif.PageAllocator.limit_not_kept"
   ],
   "note": "holds up to pages returned earlier and not yet reported, which are counted against the excess; false in general: limit_not_kept"
  },
  {
   "property": "C48",
   "status": "partial",
   "theorems": [
    "Verif.PageAllocator.rate_partial",
    "Verif.PageAllocator.surplus_forgotten",
    "Verif.PageAllocator.surplus_lost"
   ],
   "note": "holds when the request exceeds the surplus; false otherwise: the surplus is overwritten (surplus_lost)"
  },
  {
   "property": "C49",
   "status": "partial",
   "theorems": [
    "Verif.PageAllocator.hard_part_keeps_hugepages_partial",
    "Verif.PageAllocator.hugepages_broken_though_off"
   ],
   "note": "what is done for the hard limit breaks none; but setting a hard limit lowers the soft limit to it, whose enforcement breaks hugepages: hugepages_broken_though_off"
  },
  {
   "property": "C50",
   "status": "proved",
   "theorems": [
    "Verif.Guarded.report_live",
    "Verif.Guarded.report_freed",
    "Verif.Guarded.overflow_detected",
    "Verif.Guarded.wrong_address_reported",
    "Verif.Guarded.double_free_reported",
    "Verif.Guarded.use_after_free_reported",
    "Verif.Guarded.calls_succeed",
    "Verif.Guarded.zero_overflow_missed"
   ],
   "note": "calls_succeed: a correct program gets no report. zero_overflow_missed: the checked bytes of slot 0 are zero"
  },
  {
   "property": "C51",
   "status": "proved",
   "theorems": [
    "Verif.Guarded.guarded_rate",
    "Verif.Guarded.guarded_choice"
   ],
   "note": "decision of TrySample over unbounded integers (interval * 10 is assumed not to overflow)"
  },
  {
   "property": "C52",
   "status": "proved",
   "theorems": [
    "Verif.StackFilter.tracked_found",
    "Verif.StackFilter.empty_forgets",
    "Verif.StackFilter.decayAll_forgets",
    "Verif.StackFilter.recent_found",
    "Verif.StackFilter.counts_exact",
    "Verif.StackFilter.contains_iff",
    "Verif.StackFilter.transient_miss"
   ],
   "note": "transient_miss: the guarantee does not extend to moments with calls in progress"
  },
  {
   "property": "C53",
   "status": "proved",
   "theorems": [
    "Verif.SystemAlloc.release_inside",
    "Verif.SystemAlloc.release_all_pages",
    "Verif.SystemAlloc.release_ok_iff",
    "Verif.SystemAlloc.release_counted"
   ],
   "note": "All ranges, preferences and kernel answers."
  },
  {
   "property": "C54",
   "status": "proved",
   "theorems": [
    "Verif.TimeSeries.never_confirmed_twice",
    "Verif.TimeSeries.corr_calls_succeed",
    "Verif.TimeSeries.filler_never_confirmed_twice",
    "Verif.TimeSeries.stale_peak_loses_decision"
   ],
   "note": "Any readings of the clock."
  },
  {
   "property": "C55",
   "status": "proved",
   "theorems": [
    "Verif.Heap.objects_accounted",
    "Verif.Heap.pages_accounted",
    "Verif.Heap.no_leak",
    "Verif.ThreadHeap.objects_accounted",
    "Verif.ThreadHeap.pages_accounted",
    "Verif.ThreadHeap.no_leak"
   ],
   "note": "Composed heap in per-CPU mode (Verif/Heap) and in per-thread mode (Verif/ThreadHeap)."
  },
  {
   "property": "C56",
   "status": "proved",
   "theorems": [
    "Verif.HookList.invoke_exact",
    "Verif.HookList.invoke_bounded",
    "Verif.HookList.add_exact",
    "Verif.HookList.remove_exact",
    "Verif.HookList.call_returns",
    "Verif.HookList.step_defined"
   ],
   "note": "Sequentially consistent memory; stores and unlocked loads are steps of their own. moved_hook_missed: a hook that is added again and then removed once during an Invoke can be missed (the theorem asks that no Add or Remove of this hook overlaps)."
  },
  {
   "property": "C57",
   "status": "proved",
   "theorems": [
    "Verif.Recorder.live_distinct",
    "Verif.Recorder.register_fresh",
    "Verif.Recorder.register_reuses",
    "Verif.Recorder.iterate_exact",
    "Verif.Recorder.iterate_quiet",
    "Verif.Recorder.unregisterAll_exact",
    "Verif.Recorder.unregisterAll_all",
    "Verif.Recorder.unregisterAll_quiet",
    "Verif.Recorder.buried_live",
    "Verif.Recorder.unregister_callback",
    "Verif.Recorder.unregisterAll_callback",
    "Verif.Recorder.not_stuck"
   ],
   "note": "SampleRecorder in sequentially consistent memory, each locked region one step, every other atomic access a step of its own; UnregisterAll holds the graveyard lock over many steps. Callers unregister only what is registered, once, and not during UnregisterAll (header contract)."
  },
  {
   "property": "C58",
   "status": "proved",
   "theorems": [
    "Verif.Lifetime.profile_exact",
    "Verif.Lifetime.trace_exact",
    "Verif.Lifetime.known_complete",
    "Verif.Lifetime.known_sound",
    "Verif.Lifetime.report_exact",
    "Verif.Lifetime.bucketize_spec",
    "Verif.Lifetime.reported_order",
    "Verif.Lifetime.stop_ok",
    "Verif.Lifetime.in_flight_missed",
    "Verif.Lifetime.seeded_match_wrong"
   ],
   "note": "Doubles are exact numbers. in_flight_missed and seeded_match_wrong are limits of the code: an allocation not yet registered when a profile starts is missed; one made before is put down to the thread that started the profile. The byte totals and the counts scaled by sampling weight are not modelled."
  },
  {
   "property": "C59",
   "status": "partial",
   "theorems": [
    "Verif.Lifetime.deviation_partial",
    "Verif.Lifetime.deviation_low",
    "Verif.Lifetime.deviation_wrong"
   ],
   "note": "False of the code: the update adds (x - mean')(mean' - mean) instead of (x - mean')(x - mean). deviation_low: the square reported is never more than half the variance; deviation_wrong: lifetimes 10 and 30 ns give 50 instead of 100. Proved: right when all lifetimes are the same."
  },
  {
   "property": "C60",
   "status": "proved",
   "theorems": [
    "Verif.Residency.residency_exact",
    "Verif.Residency.bitmaps_exact",
    "Verif.Residency.bitmaps_unaligned",
    "Verif.Residency.incore_exact",
    "Verif.Residency.treatment_exact",
    "Verif.Residency.treatment_exact_large"
   ],
   "note": "Byte-exact for every range; the kernel's tables are read-only during a call."
  },
  {
   "property": "C61",
   "status": "proved",
   "theorems": [
    "Verif.Residency.flags_exact",
    "Verif.Residency.stale_bitmap_exact",
    "Verif.Residency.backed_exact",
    "Verif.Residency.treatment_exact",
    "Verif.Residency.small_compound_wrong"
   ],
   "note": "Under the documented assumption that compound pages are aligned hugepages; small_compound_wrong shows the assumption is needed."
  },
  {
   "property": "C62",
   "status": "proved",
   "theorems": [
    "Verif.StatsText.never_outside",
    "Verif.StatsText.print_exact",
    "Verif.StatsText.printf_exact",
    "Verif.StatsText.append_exact",
    "Verif.StatsText.pbtxt_exact",
    "Verif.StatsText.internal_exact",
    "Verif.StatsText.getStats_exact",
    "Verif.StatsText.mallocStats_exact",
    "Verif.StatsText.pbtxt_not_terminated",
    "Verif.StatsText.pbtxt_undercount"
   ],
   "note": "All buffers and texts; formatted strings shorter than 2^31 and formatting that does not fail (bounds hold without this)."
  },
  {
   "property": "C63",
   "status": "proved",
   "theorems": [
    "Verif.Experiments.active_exact",
    "Verif.Experiments.disable_all",
    "Verif.Experiments.disable_one",
    "Verif.Experiments.test_exact",
    "Verif.Experiments.test_no_brittle",
    "Verif.Experiments.test_some",
    "Verif.Experiments.find_exact",
    "Verif.Experiments.walk_exact",
    "Verif.Experiments.select_exact",
    "Verif.Experiments.select_test",
    "Verif.Experiments.table_valid",
    "Verif.Experiments.rollout_assertion"
   ],
   "note": "Builds without a compile-time experiment."
  },
  {
   "property": "C64",
   "status": "proved",
   "theorems": [
    "Verif.Topology.parse_exact",
    "Verif.Topology.parse_total",
    "Verif.Topology.possible_exact",
    "Verif.Topology.possible_le"
   ],
   "note": "Numbers of at most 14 digits (longer ones do not fit the 16-byte buffer together with their separator and are refused or misread). parse_malformed shows malformed texts that are accepted."
  },
  {
   "property": "C65",
   "status": "proved",
   "theorems": [
    "Verif.Topology.numa_exact",
    "Verif.Topology.env_exact",
    "Verif.Topology.numa_slow",
    "Verif.Topology.cache_exact",
    "Verif.Topology.cache_same"
   ],
   "note": "At most 31 nodes, and every possible CPU's cache list present. node31_mask, no_nodes and offline_stops show what happens otherwise."
  },
  {
   "property": "C66",
   "status": "proved",
   "theorems": [
    "Verif.Sampling.accounts_exact",
    "Verif.Sampling.no_check_fails",
    "Verif.Sampling.accounts_nonneg",
    "Verif.Sampling.handles_distinct"
   ],
   "note": "All interleavings, with the floating-point estimates as arbitrary functions of the sample. story_run and story_meets show a history meeting the hypotheses."
  },
  {
   "property": "C67",
   "status": "proved",
   "theorems": [
    "Verif.Sampling.profile_exact",
    "Verif.Sampling.entry_rounding",
    "Verif.Sampling.entry_zero"
   ],
   "note": "Entry rounding is in exact arithmetic and for weight 1.0. entry_zero: a block much larger than its weight is listed with count 0, which the rounding allows."
  },
  {
   "property": "C68",
   "status": "partial",
   "theorems": [
    "Verif.Sampling.peak_sequential_partial",
    "Verif.Sampling.peak_genuine",
    "Verif.Sampling.dump_genuine",
    "Verif.Sampling.lock_exact",
    "Verif.Sampling.exact_sane",
    "Verif.Sampling.peak_can_shrink",
    "Verif.Sampling.peak_can_be_stale"
   ],
   "note": "The full claim is false of the code: peak_can_shrink and peak_can_be_stale give reachable interleavings in which a saved peak is replaced by a smaller one, and in which the heap at rest exceeds the recorded peak by more than the growth fraction. It is proved when calls that are sampled do not overlap; that every profile holds only genuine samples and that one call at a time replaces the peak holds for all interleavings."
  },
  {
   "property": "C69",
   "status": "proved",
   "theorems": [
    "Verif.ProfileProto.heap_profile_exact",
    "Verif.ProfileProto.heap_totals",
    "Verif.ProfileProto.other_types_refused"
   ],
   "note": "Decoding the message gives exactly the profile; sums of int64 counts are unbounded in the model."
  },
  {
   "property": "C70",
   "status": "proved",
   "theorems": [
    "Verif.ProfileProto.lifetime_profile_exact",
    "Verif.ProfileProto.tables_exact",
    "Verif.ProfileProto.empty_segment_hides"
   ],
   "note": "Needs segments that do not overlap and are not empty; empty_segment_hides shows why."
  },
  {
   "property": "C71",
   "status": "proved",
   "theorems": [
    "Verif.ProfileProto.BuildId.build_id_safe",
    "Verif.ProfileProto.BuildId.build_id_exact"
   ],
   "note": "Segment contents are a list of bytes; reads outside it and loops without end are failures."
  },
  {
   "property": "C72",
   "status": "proved",
   "theorems": [
    "Verif.ThreadHeap.bytes_accounted",
    "Verif.ThreadHeap.in_use_exact",
    "Verif.ThreadHeap.in_use_covers",
    "Verif.ThreadHeap.class_count_exact",
    "Verif.Heap.bytes_accounted",
    "Verif.Heap.in_use_exact",
    "Verif.Heap.in_use_covers",
    "Verif.Heap.class_count_exact",
    "Verif.CentralFreeList.free_exact",
    "Verif.CentralFreeList.overhead_exact",
    "Verif.GlobalStats.one_object_no_tail"
   ],
   "note": "Proved of the composed heaps (per-CPU and per-thread) for every reachable state. Sampled and guarded allocations are not part of the composed heaps; the sizes of blocks are the sizes of their classes or runs."
  },
  {
   "property": "C73",
   "status": "partial",
   "theorems": [
    "Verif.GlobalStats.property_agrees_partial",
    "Verif.GlobalStats.virtual_differs",
    "Verif.GlobalStats.property_agrees_false",
    "Verif.GlobalStats.totals",
    "Verif.GlobalStats.mallinfo2_adds_up",
    "Verif.GlobalStats.mallinfo2_per_cpu_false"
   ],
   "note": "The full claim is false of the code (property_agrees_false: six names; mallinfo2_per_cpu_false: the fields miss the per-CPU and sharded bytes). Proved: all other names agree in every state; mallinfo2 adds up in per-thread mode."
  },
  {
   "property": "C74",
   "status": "proved",
   "theorems": [
    "Verif.SysFiles.status_exact",
    "Verif.SysFiles.status_reads_all",
    "Verif.SysFiles.field_entry"
   ],
   "note": "Other lines must not have a colon after the first 1024 characters (an example shows that the end of such a line is taken for a line of its own); values below 2^64 bytes; sums not reduced to 64 bits."
  },
  {
   "property": "C75",
   "status": "proved",
   "theorems": [
    "Verif.Treatment.select_state",
    "Verif.Treatment.select_collapse",
    "Verif.Treatment.select_names",
    "Verif.Treatment.sortedHeap_lawful"
   ],
   "note": "For every heap implementation meeting the C++ standard's requirements; sortedHeap_lawful shows one exists. Clock in whole cycles, constant during the selection."
  },
  {
   "property": "C76",
   "status": "proved",
   "theorems": [
    "Verif.Treatment.treat_figures",
    "Verif.Treatment.treat_records",
    "Verif.Treatment.attempts_add",
    "Verif.Treatment.pass_spec",
    "Verif.Treatment.backoff_range",
    "Verif.Treatment.backoff_skips",
    "Verif.Treatment.backoff_tries",
    "Verif.Treatment.totals_exact",
    "Verif.Treatment.collapse_undisturbed",
    "Verif.Treatment.treat_ends"
   ],
   "note": "What the kernel and its page flags say of a hugepage is arbitrary (Probe). A hugepage with returned pages is refused before asking the kernel and counts as an attempt with error 'other'."
  },
  {
   "property": "C77",
   "status": "partial",
   "theorems": [
    "Verif.ZeroBytes.sample_exact",
    "Verif.ZeroBytes.estimate_spec",
    "Verif.ZeroBytes.analyze_exact",
    "Verif.ZeroBytes.analyze_whole",
    "Verif.ZeroBytes.addZero_le",
    "Verif.ZeroBytes.addZero_partial",
    "Verif.ZeroBytes.profile_mismatch",
    "Verif.ZeroBytes.rounding_id"
   ],
   "note": "Everything is proved except exactness for allocations whose requested size is below the allocated size: there it is false (profile_mismatch), because the profile reads the residency of the allocated bytes and analyses the requested ones. double arithmetic: any rounding that is monotone, exact on integers up to 2^53 and of relative error at most 2^-53."
  },
  {
   "property": "C78",
   "status": "proved",
   "theorems": [
    "Verif.SafeIo.read_exact",
    "Verif.SafeIo.read_result",
    "Verif.SafeIo.read_ends",
    "Verif.SafeIo.read_regular",
    "Verif.SafeIo.poll_spec",
    "Verif.SafeIo.open_spec",
    "Verif.SafeIo.write_exact"
   ],
   "note": "Kernel = arbitrary list of answers to the successive system calls."
  },
  {
   "property": "C79",
   "status": "partial",
   "theorems": [
    "Verif.SafeIo.write_result_partial",
    "Verif.SafeIo.write_returns_last",
    "Verif.SafeIo.close_partial",
    "Verif.SafeIo.close_reports_failure",
    "Verif.SafeIo.close_takes_another"
   ],
   "note": "Refuted for the code: a split write returns only what its last piece wrote; an interrupted close, which on Linux has freed the descriptor, is repeated and reports failure or closes another thread's file. Holds for writes whose earlier pieces wrote nothing and for uninterrupted closes."
  },
  {
   "property": "C80",
   "status": "proved",
   "theorems": [
    "Verif.Background.runs_iff",
    "Verif.Background.clock_back_stalls",
    "Verif.Background.pass_order"
   ],
   "note": "Schedule stated from the history alone (lastRun), independent of the thread's variables."
  },
  {
   "property": "C81",
   "status": "partial",
   "theorems": [
    "Verif.Background.request_exact",
    "Verif.Background.requests_add_up",
    "Verif.Background.request_defined_partial",
    "Verif.Background.request_overflow",
    "Verif.Background.request_nothing",
    "Verif.Background.highest_rate",
    "Verif.Background.clock_set_back"
   ],
   "note": "Refuted at the extremes: the capped value of the conditional expression is a double (2^63), so converting it back to ssize_t is undefined and on x86-64 gives a request of nothing; a large rate with the clock set back is undefined too. Exact whenever the amount fits."
  },
  {
   "property": "C82",
   "status": "proved",
   "theorems": [
    "Verif.Process.foreign_untouched",
    "Verif.Process.blocks_given",
    "Verif.Process.released_given",
    "Verif.Process.heap_spares_guarded",
    "Verif.Process.guarded_spares_others",
    "Verif.Process.blocks_disjoint",
    "Verif.Process.free_routed",
    "Verif.ThreadProcess.foreign_untouched",
    "Verif.ThreadProcess.blocks_given",
    "Verif.ThreadProcess.released_given",
    "Verif.ThreadProcess.heap_spares_guarded",
    "Verif.ThreadProcess.blocks_disjoint",
    "Verif.ThreadProcess.free_routed"
   ],
   "note": "For the composed heap in per-CPU mode (Process) and per-thread mode (ThreadProcess), as C01, and the guarded page allocator in one address space; the kernel maps only unmapped memory. Allocator metadata (arena, page map) is outside this memory and modelled separately (C31, C11)."
  },
  {
   "property": "C83",
   "status": "partial",
   "theorems": [
    "Verif.Settings.get_last_set_partial",
    "Verif.Settings.get_last_set",
    "Verif.Settings.duration_kept",
    "Verif.Settings.no_fault_once_set_up",
    "Verif.Settings.thread_cache_limit_partial",
    "Verif.Settings.partitioning_set",
    "Verif.Settings.partitioning_unset",
    "Verif.Settings.partitioning_single",
    "Verif.Settings.subrelease_decided",
    "Verif.Settings.limit_before_setUp",
    "Verif.Settings.soft_limit_faults",
    "Verif.Settings.cpu_cache_size_lost",
    "Verif.Settings.min_hot_lost",
    "Verif.Settings.hard_limit_flips",
    "Verif.Settings.thread_cache_limit_parts",
    "Verif.Settings.thread_cache_limit_negative",
    "Verif.Settings.first_access_race"
   ],
   "note": "Fifteen settings: proved outright for all interleavings (three of them, the per-CPU cache size, the hotness threshold and per-CPU caches wanted, unless an experiment is on or the CPU count is unreadable). Those and the two limits are written by the allocator's own start-up, and the claim is proved once that is over; before it the claim is false of the code, with witnesses: a limit reads 0, setting a soft limit is a null-pointer call, a cache size is overwritten. The thread-cache limit in effect follows the one read back only if setters do not overlap (witness for the contrary)."
  },
  {
   "property": "C84",
   "status": "partial",
   "theorems": [
    "Verif.Signals.same_as_without_partial",
    "Verif.Signals.bounds_reported",
    "Verif.Signals.use_after_free_handled",
    "Verif.Signals.reported_then_forwarded",
    "Verif.Signals.no_false_report",
    "Verif.Signals.write_flag",
    "Verif.Signals.alternate_stack_lost",
    "Verif.Signals.one_shot_lost",
    "Verif.Signals.mask_lost",
    "Verif.Signals.ignored_fault_loops",
    "Verif.Signals.ignored_with_info_kills",
    "Verif.Signals.activation_race"
   ],
   "note": "Proved for every interleaving of signals, program sigaction calls and activation steps where the program's set-up is plain (no alternate stack needed, not one-shot, no extra mask, no ignored fault) and no signal falls in the one-step window of activation; each exclusion is a refutation of the full claim with a concrete run. The reports are proved for every reachable state of the guarded pages."
  },
  {
   "property": "C85",
   "status": "partial",
   "theorems": [
    "Verif.PageAllocator.limit_counts",
    "Verif.PageAllocator.peak_is_max",
    "Verif.PageAllocator.over_counts",
    "Verif.PageAllocator.within_counts",
    "Verif.PageAllocator.hard_hits_assertion_partial",
    "Verif.PageAllocator.hard_hits_assertion_fails"
   ],
   "note": "The counts and the peak are proved exact for every life of the process. The last clause is false of the code: hard_hits_assertion_fails is a life in which the assertion at page_allocator.cc:133 fails although all went well, because a hit of the hard limit that shrinking for the soft limit dealt with is not counted as a success."
  },
  {
   "property": "C86",
   "status": "partial",
   "theorems": [
    "Verif.Frontend.matching_free_passes_partial",
    "Verif.Frontend.size_check_exact",
    "Verif.Frontend.oversize_reported",
    "Verif.Frontend.realloc_false_alarm",
    "Verif.Frontend.report_range_excludes_request"
   ],
   "note": "CorrectSize and CorrectAlignment on the entry-point model. Proved: no false alarm in histories that realloc no block aligned beyond a page; outside sampled memory the size check passes exactly for sizes served by the block's class or page count; every size beyond the block is reported, with the block's size as the upper end of the range. False of the code: after memalign(16384, 8192) and realloc to 8000 in place, realloc's own check fails (realloc_false_alarm); the range reported for memalign(64, 100) is 113-128 (report_range_excludes_request). Sampled memory is checked against its record instead (unsampleChecks, C43)."
  },
  {
   "property": "C87",
   "status": "partial",
   "theorems": [
    "Verif.Reports.first_report_true_partial",
    "Verif.Reports.last_report_true_partial",
    "Verif.Reports.report_defined",
    "Verif.Reports.large_report_true_partial",
    "Verif.Reports.misaligned_below",
    "Verif.Reports.stale_stack",
    "Verif.Reports.stale_alignment",
    "Verif.Reports.stale_limited_partial"
   ],
   "note": "Proved: the first report of a process, if defined, leaves the truth; so does the last of any sequence unless it is a double free or a wild pointer; a report is undefined exactly for misaligned pointers that are multiples of 4 GiB, which no wrong pointer into a large block's first page and no pointer off an expected alignment up to 4 GiB is. False of the code: a double free or wild pointer reported after another error shows that error's allocation stack or alignments. Missing: interleaved writes of two reports."
  },
  {
   "property": "C88",
   "status": "proved",
   "theorems": [
    "Verif.Environ.getenv_exact",
    "Verif.Environ.isSet_unique",
    "Verif.Environ.other_variable_irrelevant",
    "Verif.Environ.set_then_get",
    "Verif.Environ.subrelease_follows",
    "Verif.Environ.huge_region_follows",
    "Verif.Environ.partitioning_follows"
   ],
   "note": "The lookup is modelled byte by byte, with reads outside a string undefined, and proved for every environment and name. Three switches are carried through to their effect; the lists of experiments are in Experiments. Assumed: the environment does not change during the lookup, and names are shorter than 2 GiB."
  }
 ]
}