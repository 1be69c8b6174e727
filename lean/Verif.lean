import Verif.SizeMap.Props
import Verif.Bitmap.Props
import Verif.RangeTracker.Props
import Verif.MemoryTag.Props
import Verif.Frontend.HistoryProps
import Verif.Span.Props
import Verif.CentralFreeList.Props
import Verif.PageMap.Props
import Verif.HugeAddressMap.Props
import Verif.HugeAllocator.Props
import Verif.HugeCache.Props
import Verif.PageTracker.Props
import Verif.LinkedList.Props
import Verif.HintedLists.Props
import Verif.Filler.Props
import Verif.HugeRegion.Props
import Verif.Filler.Extra
import Verif.PageHeap.Props
import Verif.PageAllocator.Story
import Verif.TransferCache.Props
import Verif.Slab.Props
import Verif.CpuCache.Story
import Verif.ThreadCache.Story
import Verif.Arena.Story
import Verif.Guarded.Story
import Verif.StackFilter.Story
import Verif.Recorder.Props
import Verif.Sampler.Story
import Verif.SystemAlloc.Story
import Verif.TimeSeries.Story
import Verif.Heap.Story
import Verif.Heap.BridgeStory
import Verif.HookList.Props
import Verif.Lifetime.Props
import Verif.Residency.Props
import Verif.StatsText.Props
import Verif.Experiments.Props
import Verif.Topology.Props
import Verif.Sampling.Props
import Verif.ProfileProto.Props
import Verif.ProfileProto.BuildIdProps
import Verif.ThreadHeap.Props
import Verif.ThreadHeap.Story
import Verif.GlobalStats.Props
import Verif.GlobalStats.Tables
import Verif.ThreadHeap.Stats
import Verif.ThreadHeap.StatsStory
import Verif.Heap.Stats
import Verif.Heap.StatsStory
import Verif.SysFiles.StatusProps
import Verif.Treatment.Story
import Verif.Treatment.CollapseStory
import Verif.ZeroBytes.Props
import Verif.SafeIo.Props
import Verif.Background.Props
import Verif.Process.Story
import Verif.ThreadProcess.Story
import Verif.Settings.Props
import Verif.Signals.Props
import Verif.PageAllocator.Counters
import Verif.ThreadHeap.BridgeStory
import Verif.Frontend.ChecksRange
import Verif.Reports.Props
import Verif.Environ.Switches
