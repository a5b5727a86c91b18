import Verif.Props.BinarySearch
import Verif.Props.Lookup
import Verif.Props.Compare
import Verif.Props.Heap
import Verif.Props.PriorityQueue
import Verif.Props.SkipList
import Verif.Props.SkipListAny
import Verif.Props.SkipListSet
import Verif.Props.DList
import Verif.Props.DListQueue
import Verif.Props.SList
import Verif.Props.Transform
import Verif.Props.Vector
import Verif.Props.Stack
import Verif.Props.Generate
import Verif.Props.Numeric
import Verif.Props.Sort
import Verif.Props.BuiltinSet
import Verif.Props.Pool
import Verif.Props.HeapMem
import Verif.Props.SkipListM
import Verif.Props.SkipListBag
import Verif.Props.SkipListCost
import Verif.Props.Callback
import Verif.Props.CallbackSearch
import Verif.Props.CallbackAny
import Verif.Props.DListCursor
import Verif.Props.DListCallback
import Verif.Props.SListCursor
import Verif.Props.SListCallback
import Verif.Props.SkipListCursor
import Verif.Props.SkipListWeak
import Verif.Props.SkipListRange
import Verif.Props.SkipListCallback
import Verif.Props.BuiltinSetLive
import Verif.Props.Retained
import Verif.Props.VectorCursor
import Verif.Props.PanicEq
import Verif.Props.BuiltinSetHash
import Verif.Model.Strings
import Verif.Spec.Strings
import Verif.Proofs.Strings
import Verif.Props.Strings
import Verif.Proofs.Agree
import Verif.Props.Agree
import Verif.Props.HeapAny
import Verif.Props.Growth
import Verif.Props.BuiltinSetNested
import Verif.Props.Copies
import Verif.Props.VectorShare
import Verif.Props.SortAny
import Verif.Props.SkipListMemory
import Verif.Props.SkipListSetCallback
import Verif.Props.PQCopy
import Verif.Props.StackShare
import Verif.Props.SkipListCopy
import Verif.Props.Interchange
import Verif.Props.SkipListReenter
import Verif.Props.DListNested
import Verif.Props.SListNested
import Verif.Props.ReadOnly
import Verif.Props.Shuffle
import Verif.Props.FloatError
import Verif.Props.AverageBetween
import Verif.Props.TestHelper
import Verif.Props.SkipListNested
import Verif.Props.SortedVector
import Verif.Props.SkipListTail
import Verif.Props.BuiltinSetKeys
import Verif.Props.SliceLaws
import Verif.Props.PQClients
import Verif.Props.SkipListRefs
import Verif.Props.SliceCost
import Verif.Props.Looks
import Verif.Props.IndexWrap
import Verif.Props.Footprint
import Verif.Props.HeapPath
import Verif.Props.CallCost
import Verif.Props.SkipListShape
import Verif.Props.HeapLaws
import Verif.Props.Goroutines
import Verif.Props.SkipListBorder
import Verif.Props.BuiltinSetLaws
import Verif.Props.Nan
import Verif.Tests.Slices
import Verif.Tests.Transform
import Verif.Tests.Lists
import Verif.Tests.Sets
import Verif.Tests.SkipLists
import Verif.Props.Rename
import Verif.Props.HeapNan
import Verif.Props.SkipListThreads
import Verif.Props.SkipListLocked
import Verif.Props.Allocates
import Verif.Props.Guarded
import Verif.Props.NilFunc
import Verif.Props.FloatSpecial
import Verif.Props.SortBound
import Verif.Props.HeapSorting
import Verif.Props.SearchBound
import Verif.Props.AskBound
import Verif.Props.FoundBound
import Verif.Props.ReadBound
import Verif.Props.BothBound
import Verif.Props.ShuffleSeeds
import Verif.Props.FewSwaps
