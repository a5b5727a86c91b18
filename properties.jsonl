{"id": "C01", "title": "LowerBound is the partition point", "statement": "On a slice sorted w.r.t. the comparison, LowerBound / LowerBoundFunc returns r with 0<=r<=len(a), every element before r is less than value, and no element from r on is less than value (so r is the first element not less than value, or len(a)).", "quantifier": "every slice of every length that is sorted, every value, every strict weak order", "why_tests_cant": "tests sample a few slices; the partition claim ranges over all lengths and all orders including ones with equivalent-but-distinct elements", "anchors": ["binary_search.go:LowerBound", "binary_search.go:LowerBoundFunc"]}
{"id": "C02", "title": "UpperBound is the strict partition point", "statement": "On a sorted slice UpperBound / UpperBoundFunc returns r with 0<=r<=len(a), no element before r is greater than value and every element from r on is greater than value.", "quantifier": "every sorted slice, every value, every strict weak order", "why_tests_cant": "unbounded domain of slices and orders", "anchors": ["binary_search.go:UpperBound", "binary_search.go:UpperBoundFunc"]}
{"id": "C03", "title": "BinarySearch is sound, complete and returns the first match", "statement": "On a sorted slice BinarySearch / BinarySearchFunc returns (i,true) with i the smallest index of an element equivalent to value when one exists, and (-1,false) exactly when none exists.", "quantifier": "every sorted slice, every value, every strict weak order", "why_tests_cant": "absence and firstness range over all elements of all slices", "anchors": ["binary_search.go:BinarySearch", "binary_search.go:BinarySearchFunc"]}
{"id": "C04", "title": "Searches are memory safe and terminate on any input", "statement": "LowerBound, UpperBound, their Func forms and BinarySearch(Func) terminate, never index out of range and return an index in range even when the slice is not sorted or the comparison is inconsistent.", "quantifier": "every slice (sorted or not), every value, every boolean comparison function", "why_tests_cant": "requires all malformed inputs and all comparison functions", "anchors": ["binary_search.go:LowerBoundFunc", "binary_search.go:UpperBoundFunc", "binary_search.go:BinarySearchFunc"]}
{"id": "C05", "title": "Searches cost O(log n) comparisons", "statement": "LowerBound(Func) and UpperBound(Func) call the comparison at most floor(log2 n)+1 times on a slice of length n (0 times when n=0).", "quantifier": "every slice of every length, every comparison function", "why_tests_cant": "asymptotic bound for all n", "anchors": ["binary_search.go:LowerBoundFunc", "binary_search.go:UpperBoundFunc"]}
{"id": "C06", "title": "UpperBound - LowerBound counts the equal elements", "statement": "On a sorted slice UpperBound(a,v)-LowerBound(a,v) equals Count(a,v) and the elements of a in that index range are exactly those equal to v.", "quantifier": "every sorted slice and value", "why_tests_cant": "relates three functions over all slices", "anchors": ["binary_search.go:LowerBound", "binary_search.go:UpperBound", "compute.go:Count"]}
{"id": "C07", "title": "MakeMinHeap builds a heap out of the same elements", "statement": "After MakeMinHeap / MakeHeapFunc the slice is a permutation of the original and every element is not less than its parent.", "quantifier": "every slice, every strict weak order", "why_tests_cant": "all lengths; heap shape depends on every element", "anchors": ["heap.go:MakeMinHeap", "heap.go:MakeHeapFunc", "heap.go:heapDown"]}
{"id": "C08", "title": "IsMinHeap decides the heap property", "statement": "IsMinHeap(a) is true iff for every i>0 the element i is not less than its parent (i-1)/2; hence a[0] is a minimum.", "quantifier": "every slice", "why_tests_cant": "an iff over all slices", "anchors": ["heap.go:IsMinHeap"]}
{"id": "C09", "title": "IsHeapFunc decides the heap property for less", "statement": "IsHeapFunc(a,less) is true iff no element is less (by less) than its parent; in particular it is true after MakeHeapFunc(a,less).", "quantifier": "every slice and every strict weak order less", "why_tests_cant": "the documented claim fails exactly on heaps with equivalent parent/child; tests use distinct values only", "anchors": ["heap.go:IsHeapFunc", "heap.go:MakeHeapFunc"]}
{"id": "C10", "title": "PushMinHeap adds exactly one element and keeps the heap", "statement": "Given a heap, PushMinHeap / PushHeapFunc leaves a heap whose elements are the old elements plus v.", "quantifier": "every heap, every value, every strict weak order", "why_tests_cant": "all heaps", "anchors": ["heap.go:PushMinHeap", "heap.go:PushHeapFunc", "heap.go:heapUp"]}
{"id": "C11", "title": "PopMinHeap returns the minimum and keeps the heap", "statement": "Given a non-empty heap, PopMinHeap / PopHeapFunc returns an element that no element of the heap is less than, and leaves a heap of the remaining elements; on an empty heap it panics.", "quantifier": "every heap, every strict weak order", "why_tests_cant": "all heaps", "anchors": ["heap.go:PopMinHeap", "heap.go:PopHeapFunc"]}
{"id": "C12", "title": "RemoveMinHeap removes exactly the element at index i and keeps the heap", "statement": "Given a heap and 0<=i<len, RemoveMinHeap / RemoveHeapFunc returns the element that was at index i and leaves a heap of the other elements; for i outside the range it panics.", "quantifier": "every heap, every index (including negative and too large), every strict weak order", "why_tests_cant": "needs the sift-up-after-sift-down case for all heaps", "anchors": ["heap.go:RemoveMinHeap", "heap.go:RemoveHeapFunc"]}
{"id": "C13", "title": "Heap index arithmetic survives 64-bit overflow", "statement": "For every heap length representable as Go int, sifting down with wrapping 64-bit index arithmetic (2*i+1 may overflow to negative) takes the same decision as with unbounded integers; no index ever goes out of range.", "quantifier": "every 0<=i<n<=2^63-1", "why_tests_cant": "slices of length >2^62 cannot be allocated in a test", "anchors": ["heap.go:heapDown", "heap.go:heapDownFunc"]}
{"id": "C14", "title": "Heap operations cost O(log n) comparisons", "statement": "PushMinHeap does at most floor(log2 n)+1 comparisons (n = new length); PopMinHeap and RemoveMinHeap do O(log n); MakeMinHeap does at most 4n comparisons.", "quantifier": "every slice of every length", "why_tests_cant": "asymptotic bound over all n", "anchors": ["heap.go:heapUp", "heap.go:heapDown", "heap.go:MakeMinHeap"]}
{"id": "C15", "title": "PriorityQueue is a multiset with extract-min", "statement": "For any history of Push, Pop, Top, Clear, Len, IsEmpty the queue holds exactly the pushed-and-not-popped elements; Top and Pop return an element such that none remaining is less; Len is their number; Top/Pop panic iff the queue is empty.", "quantifier": "every sequence of operations, every strict weak order, both constructors", "why_tests_cant": "all histories", "anchors": ["priority_queue.go:PriorityQueue.Push", "priority_queue.go:PriorityQueue.Pop", "priority_queue.go:PriorityQueue.Top", "priority_queue.go:PriorityQueue.Clear"]}
{"id": "C16", "title": "Draining a PriorityQueue sorts", "statement": "NewPriorityQueueOn(slice)/Of(elements) followed by popping until empty returns the elements in ascending order, each exactly as often as it occurred.", "quantifier": "every slice", "why_tests_cant": "all inputs", "anchors": ["priority_queue.go:NewPriorityQueueOn", "priority_queue.go:NewPriorityQueueOf"]}
{"id": "C17", "title": "SkipList is a finite map", "statement": "For any history of Insert, Remove, Clear, Find, Has, Len, IsEmpty, and whatever values the random generator returns, every result equals that of a finite map (Insert replaces the value of an existing key; Remove returns whether the key was present; Len is the number of distinct keys).", "quantifier": "every sequence of operations, every random-level sequence, every key order, both constructors", "why_tests_cant": "random levels make concrete structure unpredictable; all histories", "anchors": ["skiplist.go:SkipList.Insert", "skiplist.go:SkipList.Remove", "skiplist.go:SkipList.Find", "skiplist.go:SkipList.Has", "skiplist.go:SkipList.Clear", "skiplist.go:SkipList.Len"]}
{"id": "C18", "title": "SkipList iteration is sorted and complete", "statement": "Iterate and ForEach visit every stored key exactly once, in strictly ascending key order, with its current value, and stop after exactly Len() elements.", "quantifier": "every reachable skip list", "why_tests_cant": "all histories and random levels", "anchors": ["skiplist.go:SkipList.Iterate", "skiplist.go:SkipList.ForEach", "skiplist.go:skipListIterator"]}
{"id": "C19", "title": "SkipList LowerBound/UpperBound", "statement": "LowerBound(k) iterates exactly the entries with key >= k in order, UpperBound(k) exactly the entries with key > k.", "quantifier": "every reachable skip list, every key", "why_tests_cant": "all histories", "anchors": ["skiplist.go:SkipList.LowerBound", "skiplist.go:SkipList.UpperBound"]}
{"id": "C20", "title": "SkipList FindRange iterates [first,last)", "statement": "FindRange(first,last) iterates exactly the entries with first <= key < last (last is not included).", "quantifier": "every reachable skip list, every pair first<=last", "why_tests_cant": "documented half-open range; test stops before reaching last", "anchors": ["skiplist.go:SkipList.FindRange", "container.go:SortedMap.FindRange"]}
{"id": "C21", "title": "FindRange iteration never panics", "statement": "Iterating the result of FindRange(first,last) with IsNotEnd/MoveToNext ends without panicking for every first and last (an empty range when first > last).", "quantifier": "every reachable skip list, every pair of keys", "why_tests_cant": "needs reversed pairs with keys in between", "anchors": ["skiplist.go:SkipList.FindRange", "skiplist.go:skipListIterator.MoveToNext"]}
{"id": "C22", "title": "SkipList operations never panic or loop forever", "statement": "Starting from a constructor, no Insert/Remove/Clear/Find/Has/LowerBound/UpperBound/Iterate ever dereferences nil, indexes out of range, reaches the 'should not reach here' panic or fails to terminate, whatever the random generator returns.", "quantifier": "every history, every 64-bit random output", "why_tests_cant": "all random outputs, including the 2^-40 event of an all-zero draw", "anchors": ["skiplist.go:SkipList.randomLevel", "skiplist_newnode.go:newSkipListNode", "skiplist.go:SkipList.Insert", "skiplist.go:SkipList.Remove"]}
{"id": "C23", "title": "Random level is in range and adaptive", "statement": "For every 64-bit random value and every length, the level chosen for a new element is between 1 and 40, and if it exceeds 3 then 2^(level-3) <= Len().", "quantifier": "every 64-bit random output and every length", "why_tests_cant": "2^64 outputs times all lengths", "anchors": ["skiplist.go:SkipList.randomLevel"]}
{"id": "C24", "title": "NewSkipListFunc behaves like NewSkipList", "statement": "With a compare function that agrees with the key type's operators, a SkipList from NewSkipListFunc returns the same results as one from NewSkipList for every history and the same random outputs.", "quantifier": "every history, every random sequence, every agreeing compare function (any int values, only the sign matters)", "why_tests_cant": "two separately written implementations must agree on all histories", "anchors": ["skiplist.go:skipListOrdered", "skiplist.go:skipListFunc"]}
{"id": "C25", "title": "NewSkipListFromMap does not depend on map iteration order", "statement": "NewSkipListFromMap(m) contains exactly the entries of m, for every order in which Go iterates the map and every random sequence.", "quantifier": "every map, every iteration order, every random sequence", "why_tests_cant": "Go randomises map order", "anchors": ["skiplist.go:NewSkipListFromMap"]}
{"id": "C26", "title": "Pointers returned by Find alias the stored value and stay valid", "statement": "A pointer from Find(k) reads the current value of k; writing through it is seen by later Find/iteration of k only; it stays valid across Insert of any key and Remove of other keys.", "quantifier": "every reachable skip list, every later history that does not remove k or Clear", "why_tests_cant": "aliasing across all later histories", "anchors": ["skiplist.go:SkipList.Find"]}
{"id": "C27", "title": "SkipList ForEach variants", "statement": "ForEachIf/ForEachMutableIf call the callback on a prefix of the sorted entries that ends at the first false; ForEachMutable(If) updates exactly the visited values and nothing else.", "quantifier": "every reachable skip list, every (stateful) callback", "why_tests_cant": "all callbacks", "anchors": ["skiplist.go:SkipList.ForEachIf", "skiplist.go:SkipList.ForEachMutable", "skiplist.go:SkipList.ForEachMutableIf"]}
{"id": "C28", "title": "Removing the current key inside ForEach is safe", "statement": "A ForEach whose callback removes the key it is given visits every original key exactly once in order, and leaves the list empty.", "quantifier": "every reachable skip list", "why_tests_cant": "depends on removed nodes keeping their links, for all level configurations", "anchors": ["skiplist.go:SkipList.ForEach", "skiplist.go:SkipList.Remove"]}
{"id": "C29", "title": "SkipList Clear resets", "statement": "After Clear, Len()=0, iteration is empty, no key is found and every later history behaves as on a new list.", "quantifier": "every reachable skip list, every later history", "why_tests_cant": "stale internal levels/prev cache could leak into later operations", "anchors": ["skiplist.go:SkipList.Clear"]}
{"id": "C30", "title": "An inserted key is found - also for NaN keys", "statement": "For every Ordered key type, including floats, after Insert(k,v) Has(k) is true and inserting k again does not change Len().", "quantifier": "every key of every Ordered type", "why_tests_cant": "fails only for NaN", "anchors": ["skiplist.go:skipListOrdered.findInsertPoint", "skiplist.go:skipListOrdered.doFindNode", "types.go:Ordered"]}
{"id": "C31", "title": "SkipListSet is a sorted set", "statement": "For any history, Insert returns true iff the element was absent, Remove true iff present, InsertN/RemoveN the number actually added/removed, Has/Len/IsEmpty/Clear agree with a finite set, Keys/ForEach list the elements strictly ascending.", "quantifier": "every history, every random sequence, every key order, all constructors", "why_tests_cant": "all histories", "anchors": ["skiplist_set.go:SkipListSet.Insert", "skiplist_set.go:SkipListSet.InsertN", "skiplist_set.go:SkipListSet.Remove", "skiplist_set.go:SkipListSet.RemoveN", "skiplist_set.go:SkipListSet.Keys"]}
{"id": "C32", "title": "SkipListSet bounds", "statement": "LowerBound(k)/UpperBound(k) iterate exactly the elements >= k / > k in order; FindRange(first,last) exactly those in [first,last).", "quantifier": "every reachable set, every key pair with first<=last", "why_tests_cant": "documented half-open range not tested at the end", "anchors": ["skiplist_set.go:SkipListSet.LowerBound", "skiplist_set.go:SkipListSet.UpperBound", "skiplist_set.go:SkipListSet.FindRange"]}
{"id": "C33", "title": "DList is a deque", "statement": "For any history of PushFront/PushBack/PopFront/PopBack/TryPop*/Front/Back/Len/IsEmpty/Clear starting from the zero DList or DListOf, all results equal those of a sequence; Front/Back/PopFront/PopBack panic iff the list is empty and TryPop* then return (zero,false).", "quantifier": "every history", "why_tests_cant": "all interleavings of operations at both ends", "anchors": ["dlist.go:DList.PushFront", "dlist.go:DList.PushBack", "dlist.go:DList.TryPopFront", "dlist.go:DList.TryPopBack", "dlist.go:DList.Clear", "dlist.go:DListOf"]}
{"id": "C34", "title": "DList iteration", "statement": "Iterate/ForEach visit the elements front to back exactly once and terminate; ForEachIf stops at the first false; ForEachMutable(If) and iterator pointers update exactly the visited elements.", "quantifier": "every reachable list, every stateful callback", "why_tests_cant": "all lists and callbacks", "anchors": ["dlist.go:DList.Iterate", "dlist.go:DList.ForEach", "dlist.go:DList.ForEachIf", "dlist.go:DList.ForEachMutable", "dlist.go:DList.ForEachMutableIf"]}
{"id": "C35", "title": "DLists are independent", "statement": "Operations on one DList never change the contents or length of another DList.", "quantifier": "every pair of separately built lists, every history", "why_tests_cant": "a pointer bug may corrupt another list's node", "anchors": ["dlist.go:DList"]}
{"id": "C36", "title": "DListQueue is FIFO", "statement": "Any sequence of PushBack/PopFront (and the other deque operations) on a DListQueue returns elements in insertion order.", "quantifier": "every history", "why_tests_cant": "all histories", "anchors": ["dlist_queue.go:DListQueue"]}
{"id": "C37", "title": "SList is a sequence with push at both ends and pop at the front", "statement": "For any history of PushFront/PushBack/PopFront/Reverse/Front/Back/Len/IsEmpty/Clear/Values starting from the zero SList or SListOf all results equal those of a sequence; Front/Back/PopFront panic iff empty.", "quantifier": "every history", "why_tests_cant": "tail pointer must stay right across all histories", "anchors": ["slist.go:SList.PushFront", "slist.go:SList.PushBack", "slist.go:SList.PopFront", "slist.go:SList.Clear", "slist.go:SListOf"]}
{"id": "C38", "title": "SList Reverse", "statement": "Reverse reverses the sequence, keeps Len, is its own inverse, and later PushBack/PushFront/Back still address the right ends.", "quantifier": "every reachable list", "why_tests_cant": "all lists", "anchors": ["slist.go:SList.Reverse"]}
{"id": "C39", "title": "SList iteration", "statement": "Values, ForEach, Iterate list the elements front to back exactly once; ForEachIf stops at the first false; ForEachMutable(If) update exactly the visited elements.", "quantifier": "every reachable list, every stateful callback", "why_tests_cant": "all lists and callbacks", "anchors": ["slist.go:SList.Values", "slist.go:SList.ForEach", "slist.go:SList.ForEachMutableIf", "slist.go:SList.Iterate"]}
{"id": "C40", "title": "Vector is a sequence", "statement": "For any history of PushBack, PopBack, TryPopBack, Append, Insert, Remove, RemoveRange, RemoveLength, RemoveIf, Set, Clear, Reserve, Shrink with valid arguments, and for every growth policy of append, the visible contents equal those of the same operations on a plain sequence; At/Back/Len/IsEmpty agree with it.", "quantifier": "every history, every append growth policy", "why_tests_cant": "capacity-dependent paths (in-place vs reallocating) vary with history", "anchors": ["vector.go:Vector.Insert", "vector.go:Vector.RemoveRange", "vector.go:Vector.PushBack", "vector.go:Vector.PopBack", "vector.go:Vector.RemoveIf"]}
{"id": "C41", "title": "Vector index checks", "statement": "At, Set, Insert, Remove, PopBack, Back panic exactly when the index is out of range (Insert: i<0 or i>Len; the others: no such element), and a panicking call leaves the contents unchanged.", "quantifier": "every vector, every integer index, every capacity", "why_tests_cant": "slicing up to cap instead of len could hide out of range indexes", "anchors": ["vector.go:Vector.At", "vector.go:Vector.Set", "vector.go:Vector.Insert", "vector.go:Vector.PopBack", "vector.go:Vector.Back"]}
{"id": "C42", "title": "Insert inserts x even when x aliases the vector", "statement": "After v.Insert(i, x...) the contents are v[:i], the values x had at the call, v[i:], also when x is a sub-slice of v's own storage.", "quantifier": "every vector, index and argument slice including overlapping ones", "why_tests_cant": "aliasing with spare capacity overwrites x before it is read", "anchors": ["vector.go:Vector.Insert"]}
{"id": "C43", "title": "RemoveRange panics leave the vector unchanged", "statement": "RemoveRange(i,j) removes exactly the elements in [i,j) when 0<=i<=j<=Len and otherwise panics leaving the vector unchanged.", "quantifier": "every vector and every pair of integers", "why_tests_cant": "reversed ranges append before the bounds check", "anchors": ["vector.go:Vector.RemoveRange", "vector.go:Vector.RemoveLength"]}
{"id": "C44", "title": "Vector never retains removed elements", "statement": "In every history of Vector operations starting from an empty vector, all slots of the backing array between Len() and Cap() hold the zero value, so removed elements are not kept alive.", "quantifier": "every history, every growth policy", "why_tests_cant": "leaks are invisible to API-level tests; all histories", "anchors": ["vector.go:Vector.Clear", "vector.go:Vector.PopBack", "vector.go:Vector.RemoveRange", "vector.go:Vector.RemoveIf"]}
{"id": "C45", "title": "Reserve and Shrink", "statement": "Reserve(l) keeps contents and length, afterwards Cap()>=l, and does nothing if already so; Shrink keeps contents and afterwards Cap()==Len().", "quantifier": "every vector, every l, every allocation rounding policy", "why_tests_cant": "size-class rounding depends on runtime", "anchors": ["vector.go:Vector.Reserve", "vector.go:Vector.Shrink"]}
{"id": "C46", "title": "Vectors do not write outside their own storage", "statement": "No Vector operation changes a cell outside the vector's own backing window [off,off+cap); vectors with disjoint storage are independent, and after an append that exceeds the capacity the vector no longer shares storage with anything.", "quantifier": "every memory, every pair of vectors, every operation", "why_tests_cant": "all aliasing configurations", "anchors": ["vector.go:Vector"]}
{"id": "C47", "title": "IterateRange stays inside the vector", "statement": "IterateRange(i,j) iterates exactly elements i..j-1 and panics unless 0<=i<=j<=Len.", "quantifier": "every vector, capacity and pair of integers", "why_tests_cant": "slicing is bounded by cap, not len", "anchors": ["vector.go:Vector.IterateRange"]}
{"id": "C48", "title": "Vector iteration", "statement": "Iterate, ForEach visit the elements in index order exactly once; ForEachIf stops at the first false; ForEachMutable(If) update exactly the visited elements.", "quantifier": "every vector, every stateful callback", "why_tests_cant": "all vectors and callbacks", "anchors": ["vector.go:Vector.Iterate", "vector.go:Vector.ForEach", "vector.go:Vector.ForEachIf", "vector.go:Vector.ForEachMutable", "vector.go:Vector.ForEachMutableIf"]}
{"id": "C49", "title": "Stack is LIFO", "statement": "For any history of Push, Pop, TryPop, Top, Clear, Len, IsEmpty and every growth policy, all results equal those of a LIFO sequence; Pop/Top panic iff empty and TryPop then returns (zero,false).", "quantifier": "every history, both constructors, every growth policy", "why_tests_cant": "all histories", "anchors": ["stack.go:Stack.Push", "stack.go:Stack.Pop", "stack.go:Stack.TryPop", "stack.go:Stack.Top", "stack.go:Stack.Clear"]}
{"id": "C50", "title": "Copy and CopyTo", "statement": "Copy(a) and CopyTo(a,to) return a slice whose contents equal a's contents at the call, for every overlap of a and to; Copy's result shares no storage with a; CopyTo does not allocate when cap(to)>=len(a).", "quantifier": "every memory and every pair of (possibly overlapping) slices", "why_tests_cant": "all overlaps", "anchors": ["transform.go:Copy", "transform.go:CopyTo"]}
{"id": "C51", "title": "Fill, FillZero, FillPattern", "statement": "After Fill(a,v) every element is v; after FillZero every element is the zero value; after FillPattern(a,p) element i is p[i mod len(p)], and FillPattern panics iff p is empty; the length is unchanged and nothing outside a changes, even if the pattern overlaps a.", "quantifier": "every slice length (up to 2^62), every pattern length", "why_tests_cant": "doubling copy must be right at every length", "anchors": ["transform.go:Fill", "transform.go:FillPattern", "transform_fillzero_clear.go:FillZero", "transform_fillzero_old.go:FillZero"]}
{"id": "C52", "title": "Transform family", "statement": "Transform replaces each element by op(element); TransformCopy returns [op(x) | x in a] and leaves a unchanged; TransformTo returns the same sequence provided b's storage does not overlap a beyond already-read positions.", "quantifier": "every slice, op, destination slice", "why_tests_cant": "all overlaps", "anchors": ["transform.go:Transform", "transform.go:TransformTo", "transform.go:TransformCopy"]}
{"id": "C53", "title": "TransformTo is right for every destination slice", "statement": "TransformTo(a,op,b) returns [op(x) | x in a] for a's contents at the call whatever slice b is passed.", "quantifier": "every pair of slices including overlapping ones", "why_tests_cant": "overlap ahead of the read position", "anchors": ["transform.go:TransformTo"]}
{"id": "C54", "title": "Replace and ReplaceIf", "statement": "Replace(If) changes exactly the matching elements to new and leaves length and other elements unchanged.", "quantifier": "every slice and predicate", "why_tests_cant": "all slices", "anchors": ["transform.go:Replace", "transform.go:ReplaceIf"]}
{"id": "C55", "title": "Unique and UniqueCopy", "statement": "Both return the input with each maximal run of equal adjacent elements collapsed to one; UniqueCopy leaves the input unchanged; on sorted input the result has no duplicates and the same element set.", "quantifier": "every slice", "why_tests_cant": "in-place compaction while reading", "anchors": ["transform.go:Unique", "transform.go:UniqueCopy"]}
{"id": "C56", "title": "Remove family is a filter", "statement": "Remove/RemoveCopy return exactly the elements different from x, RemoveIf/RemoveIfCopy those where cond is false, in the original order; the Copy forms leave the input unchanged.", "quantifier": "every slice, value, predicate", "why_tests_cant": "in-place compaction while reading", "anchors": ["transform.go:Remove", "transform.go:RemoveCopy", "transform.go:RemoveIf", "transform.go:RemoveIfCopy"]}
{"id": "C57", "title": "Reverse and ReverseCopy", "statement": "Reverse(a) turns element i into old element len-1-i, is an involution, and ReverseCopy returns the same sequence without changing a.", "quantifier": "every slice", "why_tests_cant": "all lengths", "anchors": ["transform.go:Reverse", "transform.go:ReverseCopy"]}
{"id": "C58", "title": "Shuffle permutes", "statement": "For every random sequence Shuffle(a) leaves a permutation of the original elements.", "quantifier": "every slice, every random sequence", "why_tests_cant": "random", "anchors": ["transform.go:Shuffle"]}
{"id": "C59", "title": "Range produces [first,last)", "statement": "For every integer type and first<=last, Range(first,last) returns first, first+1, ..., last-1.", "quantifier": "every integer type, every pair first<=last", "why_tests_cant": "fails when last-first overflows the type (e.g. int8 -128..127)", "anchors": ["generate.go:Range"]}
{"id": "C60", "title": "Range terminates", "statement": "Range(first,last) terminates for every numeric type, including floats.", "quantifier": "every numeric type and pair", "why_tests_cant": "float64 increments are absorbed above 2^53", "anchors": ["generate.go:Range"]}
{"id": "C61", "title": "Generate calls gen once per element in order", "statement": "Generate(a,gen) sets a[i] to the (i+1)-th result of gen and calls it exactly len(a) times.", "quantifier": "every slice, every stateful generator", "why_tests_cant": "all generators", "anchors": ["generate.go:Generate"]}
{"id": "C62", "title": "Sort family sorts", "statement": "Sort/DescSort/SortFunc leave a permutation of the input ordered ascending/descending/by less; IsSorted (IsDescSorted) holds afterwards.", "quantifier": "every slice, every strict weak order, every implementation of sort.Sort meeting its contract", "why_tests_cant": "all inputs", "anchors": ["sort.go:Sort", "sort.go:DescSort", "sort.go:SortFunc", "sort.go:ascSlice", "sort.go:descSlice", "sort.go:funcSortable"]}
{"id": "C63", "title": "Stable sorts are stable", "statement": "StableSort/DescStableSort/StableSortFunc additionally keep the relative order of equivalent elements, so their result is uniquely determined by the input.", "quantifier": "every slice, every strict weak order, every implementation of sort.Stable meeting its contract", "why_tests_cant": "stability only shows with equivalent but distinguishable elements", "anchors": ["sort.go:StableSort", "sort.go:DescStableSort", "sort.go:StableSortFunc"]}
{"id": "C64", "title": "IsSorted and IsDescSorted decide sortedness", "statement": "IsSorted(a) iff no later element is less than an earlier one; IsDescSorted(a) iff no later element is greater than an earlier one.", "quantifier": "every slice of an ordered type without NaN", "why_tests_cant": "adjacent check must imply all pairs", "anchors": ["sort.go:IsSorted", "sort.go:IsDescSorted"]}
{"id": "C65", "title": "Equal decides element-wise equality", "statement": "Equal(a,b) iff the lengths agree and all corresponding elements are ==.", "quantifier": "every pair of slices", "why_tests_cant": "all slices", "anchors": ["compare.go:Equal"]}
{"id": "C66", "title": "Compare is the lexicographic order", "statement": "Compare returns -1/0/1 exactly when a is lexicographically before/equal/after b; it is antisymmetric, transitive and total, and 0 iff Equal.", "quantifier": "every pair/triple of slices", "why_tests_cant": "order laws quantify over triples of slices", "anchors": ["compare.go:Compare", "compare.go:Equal"]}
{"id": "C67", "title": "OrderedCompare, Less and Greater agree", "statement": "OrderedCompare(a,b) is -1 iff Less(a,b), 1 iff Greater(a,b), 0 iff a==b; it is a valid CompareFn (antisymmetric, transitive).", "quantifier": "every pair/triple of values of a totally ordered type", "why_tests_cant": "order laws", "anchors": ["functor.go:OrderedCompare", "functor.go:Less", "functor.go:Greater"]}
{"id": "C68", "title": "Min/Max family", "statement": "Min, Max, MinN, MaxN, MinMax, MinMaxN return members of their arguments that bound all arguments from below/above; the N forms panic iff called without arguments. Of several equal ones the N forms return the first, Min and Max the second, and MinMax swaps them.", "quantifier": "every argument list", "why_tests_cant": "all lists", "anchors": ["lookup.go:Max", "lookup.go:Min", "lookup.go:MaxN", "lookup.go:MinN", "lookup.go:MinMax", "lookup.go:MinMaxN"]}
{"id": "C69", "title": "Find, FindIf, Index return the first match", "statement": "They return the smallest matching index (and true), and -1 (and false) iff nothing matches.", "quantifier": "every slice and predicate", "why_tests_cant": "firstness and absence", "anchors": ["lookup.go:Find", "lookup.go:FindIf", "lookup.go:Index"]}
{"id": "C70", "title": "AllOf/AnyOf/NoneOf/Count/CountIf", "statement": "AllOf iff every element satisfies pred; AnyOf iff some does; NoneOf iff none does; Count/CountIf equal the number of matching elements.", "quantifier": "every slice and predicate", "why_tests_cant": "all slices", "anchors": ["lookup.go:AllOf", "lookup.go:AnyOf", "lookup.go:NoneOf", "compute.go:Count", "compute.go:CountIf"]}
{"id": "C71", "title": "SumAs is the exact sum reduced to the result type", "statement": "For predeclared integer element types, SumAs[R] and Sum return the mathematical sum reduced modulo 2^bits into R; hence exactly the sum when it fits R.", "quantifier": "every slice, every pair of predeclared integer types", "why_tests_cant": "wrap-around cases for all widths", "anchors": ["compute.go:SumAs", "compute.go:Sum"]}
{"id": "C72", "title": "Sum is exact for defined integer types", "statement": "For defined integer types (type MyInt int64) Sum returns the exact sum whenever it fits the type.", "quantifier": "every defined integer type and slice", "why_tests_cant": "defined types fall through to the float64 case", "anchors": ["compute.go:SumAs", "compute.go:Sum", "types.go:Numeric"]}
{"id": "C73", "title": "Average is the truncated mean", "statement": "For predeclared integer types Average returns sum/len truncated toward zero whenever the exact sum fits the 64-bit accumulator; it panics iff the slice is empty.", "quantifier": "every slice, every predeclared integer type", "why_tests_cant": "all widths and lengths", "anchors": ["compute.go:Average", "compute.go:AverageAs"]}
{"id": "C74", "title": "Average is right for defined integer types and AverageAs for small R", "statement": "For a defined small integer type (type MyInt8 int8), and for AverageAs[int8], a non-empty slice never panics and the result is the truncated mean when the mean fits.", "quantifier": "every slice length", "why_tests_cant": "the length itself is converted to R and may wrap to 0 or negative", "anchors": ["compute.go:Average", "compute.go:AverageAs"]}
{"id": "C75", "title": "BuiltinSet is a set", "statement": "For any history of Insert, InsertN, Remove, RemoveN, Delete, Clear, Has, Len, IsEmpty, Update all results equal those of a mathematical set; Insert returns true iff new, Remove true iff present, InsertN/RemoveN the change in size.", "quantifier": "every history, every map iteration order, reflexive key equality", "why_tests_cant": "all histories", "anchors": ["builtin_set.go:BuiltinSet.Insert", "builtin_set.go:BuiltinSet.InsertN", "builtin_set.go:BuiltinSet.Remove", "builtin_set.go:BuiltinSet.RemoveN", "builtin_set.go:BuiltinSet.Clear", "builtin_set.go:SetOf"]}
{"id": "C76", "title": "BuiltinSet algebra", "statement": "Union, Intersection, Difference contain exactly the elements in either, in both, in the first only; they do not modify their operands.", "quantifier": "every pair of sets, every iteration order", "why_tests_cant": "operand swapping by size must not matter", "anchors": ["builtin_set.go:BuiltinSet.Union", "builtin_set.go:BuiltinSet.Intersection", "builtin_set.go:BuiltinSet.Difference", "builtin_set.go:orderSet"]}
{"id": "C77", "title": "BuiltinSet predicates", "statement": "IsSubsetOf iff every element is in other; IsSupersetOf iff every element of other is in the set; IsDisjointOf iff no common element.", "quantifier": "every pair of sets, every iteration order", "why_tests_cant": "the size shortcut must be sound", "anchors": ["builtin_set.go:BuiltinSet.IsSubsetOf", "builtin_set.go:BuiltinSet.IsSupersetOf", "builtin_set.go:BuiltinSet.IsDisjointOf"]}
{"id": "C78", "title": "BuiltinSet enumeration", "statement": "Keys and ForEach list each element exactly once; ForEachIf visits distinct elements and stops at the first false.", "quantifier": "every set, every iteration order", "why_tests_cant": "map order is randomised", "anchors": ["builtin_set.go:BuiltinSet.Keys", "builtin_set.go:BuiltinSet.ForEach", "builtin_set.go:BuiltinSet.ForEachIf"]}
{"id": "C79", "title": "BuiltinSet Clear empties the set for every key type", "statement": "After Clear Len() is 0 for every comparable key type, including floats.", "quantifier": "every set of every comparable key type", "why_tests_cant": "only NaN keys survive delete", "anchors": ["builtin_set.go:BuiltinSet.Clear"]}
{"id": "C80", "title": "nil BuiltinSet", "statement": "On a nil set every read, Remove, Delete, Clear behaves as on an empty set; Insert (and InsertN/Update with at least one element) panics.", "quantifier": "every operation", "why_tests_cant": "nil map semantics for all operations", "anchors": ["builtin_set.go:BuiltinSet"]}
{"id": "C81", "title": "Pool hands out exclusive, non-nil objects", "statement": "Get on MakePool never returns nil; an object returned by Get is not returned again before it is Put back; Put(nil) has no effect; with no New function Get returns nil exactly when the pool has nothing to give.", "quantifier": "every interleaving of Get/Put by programs that put back only what they hold (the first and the last two parts: by all programs), every eviction by the runtime, types of non-zero size", "why_tests_cant": "sync.Pool may drop or keep objects at any time", "anchors": ["pool.go:MakePool", "pool.go:MakePoolWithNew", "pool.go:Pool.Get", "pool.go:Pool.Put"]}
{"id": "C82", "title": "Heap operations lose nothing even with an inconsistent comparison", "statement": "For an arbitrary less (not an order at all, or < on floats with NaN) and an arbitrary slice, MakeHeap, Push, Pop, Remove return normally and the multiset of elements is exactly as expected; Pop/Remove return the element of index 0 / i.", "quantifier": "every slice, every function less", "why_tests_cant": "an inconsistent less can send the sift loops anywhere", "anchors": ["heap.go:MakeHeapFunc", "heap.go:PushHeapFunc", "heap.go:PopHeapFunc", "heap.go:RemoveHeapFunc", "heap.go:MakeMinHeap"]}
{"id": "C83", "title": "SLists are independent", "statement": "Operations on one SList never change what a client observes of another SList: the observations of each list are those of the history restricted to that list.", "quantifier": "every set of separately built lists, every history", "why_tests_cant": "a pointer bug may corrupt another list's node", "anchors": ["slist.go:SList"]}
{"id": "C84", "title": "Stack never retains popped elements", "statement": "In every history of Stack operations all slots of the backing array between Len() and Cap() hold the zero value, as for Vector.", "quantifier": "every history, every growth policy", "why_tests_cant": "leaks are invisible to API-level tests", "anchors": ["stack.go:Stack.Pop", "stack.go:Stack.TryPop", "stack.go:Stack.Clear"]}
{"id": "C85", "title": "Range of a reversed or empty interval is empty", "statement": "For every integer type and first>=last, Range(first,last) returns an empty slice.", "quantifier": "every integer type, every pair first>=last", "why_tests_cant": "the capacity last-first is negative or wraps", "anchors": ["generate.go:Range"]}
{"id": "C86", "title": "Float sums are accumulated in float64 and rounded once", "statement": "For float slices of integral values whose partial sums stay within 2^53, SumAs[R] returns the float of type R nearest to the exact sum (exactly the sum for float64), also for float32 elements.", "quantifier": "every such slice, both float types", "why_tests_cant": "float32 accumulation differs only on long or large inputs", "anchors": ["compute.go:SumAs", "compute.go:Sum"]}
{"id": "C87", "title": "Average of floats", "statement": "For the same slices Average[float64] is a float64 nearest to the exact mean; for float32 it is rounded once more; it never panics for any float slice, and is NaN for an empty one.", "quantifier": "every such slice", "why_tests_cant": "rounding of all quotients", "anchors": ["compute.go:Average", "compute.go:AverageAs"]}
{"id": "C88", "title": "NaN and infinity are not lost in sums", "statement": "If a float slice has a NaN or an infinity the sum is not finite.", "quantifier": "every float slice, predeclared or defined type", "why_tests_cant": "all positions", "anchors": ["compute.go:SumAs", "compute.go:Sum"]}
{"id": "C89", "title": "Sorting with an inconsistent comparison loses nothing", "statement": "For an arbitrary less (or < on floats with NaN), SortFunc, StableSortFunc, Sort, StableSort, DescSort and DescStableSort leave a permutation of the input and change nothing outside the slice.", "quantifier": "every slice, every function less, every algorithm that stays inside the slice", "why_tests_cant": "an inconsistent less can lead the algorithm anywhere", "anchors": ["sort.go:SortFunc", "sort.go:StableSortFunc", "sort.go:Sort", "sort.go:DescSort"]}
{"id": "C90", "title": "Skip list stays intact with any comparison", "statement": "Whatever the comparison does (inconsistent compare function, NaN keys), every history of SkipList operations runs without panic or endless loop; Len() is the number of entries Iterate shows; Insert overwrites one entry whose key compares equal or adds exactly one entry; Remove takes exactly one entry whose key compares equal and returns true, or changes nothing and returns false; Find, Has, LowerBound and UpperBound only report entries that are there.", "quantifier": "every pure comparison, every history, every random level", "why_tests_cant": "no test has an oracle for an inconsistent comparison", "anchors": ["skiplist.go:SkipList.Insert", "skiplist.go:SkipList.Remove", "skiplist.go:SkipList.Find", "skiplist.go:SkipList.LowerBound", "skiplist.go:SkipList.UpperBound"]}
{"id": "C91", "title": "Skip list Insert and Find agree with any comparison", "statement": "Insert(k,v) adds an entry exactly when Find(k) returned nil just before; otherwise it writes the entry Find(k) pointed to and Len() is unchanged. No law of the comparison is needed.", "quantifier": "every pure comparison, every reachable list, every key", "why_tests_cant": "Insert and Find are separate search loops in both implementations", "anchors": ["skiplist.go:SkipList.Insert", "skiplist.go:SkipList.Find"]}
{"id": "C92", "title": "Skip list reads its writes with any comparison", "statement": "After Insert(k,v), Find(k) points to v whenever k compares equal to itself or was found before, whatever the comparison does on other keys.", "quantifier": "every pure comparison, every reachable list, every key", "why_tests_cant": "all lists and levels; inconsistent comparisons", "anchors": ["skiplist.go:SkipList.Insert", "skiplist.go:SkipList.Find"]}
{"id": "C93", "title": "Skip list Remove undoes Insert with any comparison", "statement": "If Has(k) is false and k compares equal to itself, Insert(k,v) followed by Remove(k) returns true and leaves the same entries in the same order.", "quantifier": "every pure comparison, every reachable list, every key", "why_tests_cant": "Remove uses another search loop than Insert", "anchors": ["skiplist.go:SkipList.Insert", "skiplist.go:SkipList.Remove"]}
{"id": "C94", "title": "Heap functions write only their slice", "statement": "MakeHeapFunc and MakeMinHeap rearrange the elements of the slice and write nothing else. PushHeapFunc/PushMinHeap write within the spare capacity if there is room, otherwise only in a new array. PopHeapFunc/PopMinHeap and RemoveHeapFunc/RemoveMinHeap return the right element, shorten the slice by one and leave the returned element in the slot behind the new end. No law of the comparison is needed, which may have side effects.", "quantifier": "every memory, slice header, growth policy and stateful comparison", "why_tests_cant": "sharing between slices and the slot behind the new length are not seen by tests of the visible slice", "anchors": ["heap.go:MakeHeapFunc", "heap.go:PushHeapFunc", "heap.go:PopHeapFunc", "heap.go:RemoveHeapFunc", "heap.go:MakeMinHeap", "heap.go:PushMinHeap", "heap.go:PopMinHeap", "heap.go:RemoveMinHeap"]}
{"id": "C95", "title": "A panicking comparison loses no element of a heap", "statement": "If less panics in the middle of MakeHeapFunc, PushHeapFunc, PopHeapFunc or RemoveHeapFunc and the panic is recovered, the slice holds a permutation of what it held before (with the pushed element, if any; nothing is popped), and nothing else was written. These functions panic otherwise only on an empty heap or an index out of range, and then change nothing; they hang only if less hangs.", "quantifier": "every comparison that may panic, hang or have a state, every memory and slice", "why_tests_cant": "the panic can come at any of the calls", "anchors": ["heap.go:MakeHeapFunc", "heap.go:PushHeapFunc", "heap.go:PopHeapFunc", "heap.go:RemoveHeapFunc"]}
{"id": "C96", "title": "Heaps work with a comparison that has side effects", "statement": "If less always returns and its answers are those of one strict weak order, whatever state it changes (counting, caching), the heap functions meet their contracts: heap order, permutation, and the popped element is minimal.", "quantifier": "every stateful comparison with consistent answers, every memory and slice", "why_tests_cant": "all comparisons with side effects", "anchors": ["heap.go:MakeHeapFunc", "heap.go:PushHeapFunc", "heap.go:PopHeapFunc", "heap.go:RemoveHeapFunc"]}
{"id": "C97", "title": "PriorityQueue does not retain popped elements", "statement": "The slots of the backing array that a PriorityQueue does not use hold zero values, so popped elements can be collected (as Vector does).", "quantifier": "every history of several priority queues", "why_tests_cant": "unused slots cannot be seen through the API", "anchors": ["priority_queue.go:PriorityQueue.Pop", "heap.go:PopHeapFunc"]}
{"id": "C98", "title": "Draining a heap sorts its slice in place", "statement": "MakeHeapFunc(a) followed by len(a) pops, or NewPriorityQueueOn(a) followed by len(a) Pops, returns the elements in ascending order, leaves the array of a sorted in descending order, writes nothing else and allocates nothing.", "quantifier": "every slice in every memory, every strict weak order", "why_tests_cant": "all inputs; relies on each pop parking its element behind the end", "anchors": ["heap.go:PopHeapFunc", "heap.go:PopMinHeap", "priority_queue.go:NewPriorityQueueOn", "priority_queue.go:PriorityQueue.Pop"]}
{"id": "C99", "title": "Priority queues are independent of each other and of the rest of memory", "statement": "Every interleaved history on any number of priority queues in one memory gives the observations of independent multisets with extract-min, and changes no cell that existed before. A zero PriorityQueue is empty and panics on Push, and can be assigned a constructor's result.", "quantifier": "every history, number of queues, growth policy", "why_tests_cant": "aliasing shows only for particular capacities", "anchors": ["priority_queue.go:PriorityQueue", "priority_queue.go:NewPriorityQueue", "priority_queue.go:NewPriorityQueueFunc", "priority_queue.go:NewPriorityQueueOf", "priority_queue.go:PriorityQueue.Push", "priority_queue.go:PriorityQueue.Pop"]}
{"id": "C100", "title": "NewPriorityQueueOn's queue stays within the given slice", "statement": "A queue made by NewPriorityQueueOn(slice) writes, of all memory that existed before, only the elements of slice.", "quantifier": "every slice, memory and history of the queue", "why_tests_cant": "shows only when the slice has spare capacity that belongs to someone else", "anchors": ["priority_queue.go:NewPriorityQueueOn", "priority_queue.go:PriorityQueue.Push"]}
{"id": "C101", "title": "A panicking compare function does no damage to a skip list", "statement": "A skip list made by NewSkipListFunc panics or hangs only when a call of its compare function does. An operation that panicked did nothing: after recovering, all other operations behave as on a sorted finite map that never saw it.", "quantifier": "every compare function that may keep a state, panic or hang, with answers consistent with one order; every history with recovered panics", "why_tests_cant": "the panic can come at any call of any operation, with the scratch array half written", "anchors": ["skiplist.go:NewSkipListFunc", "skiplist.go:SkipList.Insert", "skiplist.go:SkipList.Remove", "skiplist.go:SkipList.Find"]}
{"id": "C102", "title": "Skip list compare function argument order", "statement": "Every call of the compare function of a skip list passes the key of an entry of the list first and the key given to the operation second. Operations without a key make no call.", "quantifier": "every compare function, every history, every random level", "why_tests_cant": "a test sees only the calls of its own runs", "anchors": ["skiplist.go:NewSkipListFunc", "skiplist.go:SkipList.Insert", "skiplist.go:SkipList.Remove", "skiplist.go:SkipList.LowerBound", "skiplist.go:SkipList.UpperBound"]}
{"id": "C103", "title": "Worst-case number of comparisons of a skip list operation", "statement": "An operation calls the compare function at most once for each smaller key in the list, plus log2(number of Insert calls so far) + 4. If the answers obey no law, at most Len() + log2(number of Insert calls so far) + 4 times.", "quantifier": "every history, every random level, every compare function", "why_tests_cant": "the bound is over all level assignments", "anchors": ["skiplist.go:NewSkipListFunc", "skiplist.go:SkipList.Find", "skiplist.go:SkipList.Insert", "skiplist.go:SkipList.Remove"]}
{"id": "C104", "title": "Skip list withstands wrong answers of its compare function", "statement": "Whatever a compare function answers, even different answers for the same keys, no operation of the skip list panics or hangs by itself.", "quantifier": "every compare function with state, every history", "why_tests_cant": "needs one wrong answer at a particular call", "anchors": ["skiplist.go:NewSkipListFunc", "skiplist.go:SkipList.Remove"]}
{"id": "C105", "title": "Skip list operations are logarithmic on average", "statement": "If the operations do not depend on the random numbers and these are uniform, then after N <= 2^38 insertions (and any other operations) an operation of a skip list makes on average at most (5*log2(N)+17)/2 calls of its compare function, and a whole history at most that many for each operation.", "quantifier": "every sequence of operations fixed in advance, averaged over all sequences of 64-bit random words; every compare function that always returns, with answers consistent with one order", "why_tests_cant": "an average over all random choices; a test sees a few", "anchors": ["skiplist.go:SkipList.Insert", "skiplist.go:SkipList.Remove", "skiplist.go:SkipList.Find", "skiplist.go:SkipList.LowerBound", "skiplist.go:SkipList.UpperBound"]}
{"id": "C106", "title": "What a panicking callback leaves behind", "statement": "If the callback of RemoveIf, Vector.RemoveIf, Transform, ReplaceIf or Generate panics and the panic is recovered, exactly the elements whose calls returned have been processed: Transform, ReplaceIf and Generate left the others as they were; RemoveIf has the kept elements at the front and has lost neither a kept element nor one it had not asked about; Vector.RemoveIf left the vector's header alone. Nothing outside the slice was written.", "quantifier": "every callback with a state of its own that may panic or hang at any call, every memory and slice", "why_tests_cant": "the panic can come at any call", "anchors": ["transform.go:RemoveIf", "transform.go:Transform", "transform.go:ReplaceIf", "generate.go:Generate", "vector.go:Vector.RemoveIf"]}
{"id": "C107", "title": "A call can be repeated after its callback panicked", "statement": "If the callback panics and the panic is recovered, calling RemoveIf, Transform or ReplaceIf again on the same slice gives the result of one undisturbed call.", "quantifier": "every slice, every callback that gives the same answers whenever it returns", "why_tests_cant": "the panic can come at any call", "anchors": ["transform.go:RemoveIf", "transform.go:Transform", "transform.go:ReplaceIf"]}
{"id": "C108", "title": "Read-only functions with a panicking callback", "statement": "FindIf, AnyOf, NoneOf, AllOf, CountIf, ForEach and ForEachIf call their callback with the elements in order, as far as needed to decide, write nothing, and panic or hang exactly if one of these calls does.", "quantifier": "every callback with a state of its own that may panic or hang, every slice", "why_tests_cant": "all callbacks", "anchors": ["lookup.go:FindIf", "lookup.go:AllOf", "lookup.go:AnyOf", "lookup.go:NoneOf", "compute.go:CountIf", "vector.go:Vector.ForEach", "vector.go:Vector.ForEachIf"]}
{"id": "C109", "title": "Copying functions leave their input alone when the callback panics", "statement": "RemoveIfCopy and TransformCopy change no memory that existed before, also if the callback panics. TransformTo(a, op, b), with b not starting inside a, writes only the array of b, and there the results of the calls that returned.", "quantifier": "every callback with a state of its own that may panic or hang, every memory, every growth policy", "why_tests_cant": "the panic can come at any call", "anchors": ["transform.go:RemoveIfCopy", "transform.go:TransformCopy", "transform.go:TransformTo"]}
{"id": "C110", "title": "Binary search with an arbitrary comparison function", "statement": "Whatever less does (contradict itself, keep a state, change the slice), LowerBoundFunc and UpperBoundFunc ask about each element at most once, at most floor(log2 n)+1 times in all, and return a position from 0 to n that agrees with all the answers and is the only one they leave. LowerBoundFunc calls less(element, value), UpperBoundFunc less(value, element); BinarySearchFunc makes at most one more call, less(value, element). They panic or hang only if a call does.", "quantifier": "every comparison that is Go code, every slice", "why_tests_cant": "all comparisons, consistent or not", "anchors": ["binary_search.go:LowerBoundFunc", "binary_search.go:UpperBoundFunc", "binary_search.go:BinarySearchFunc"]}
{"id": "C111", "title": "Callbacks may change the slice or the vector they are called for", "statement": "FindIf, AnyOf, NoneOf, AllOf, CountIf, Transform, Generate, ReplaceIf, RemoveIf, ForEach, ForEachIf, ForEachMutable and ForEachMutableIf go through the slice as it was at the call: at most its length many calls, for index 0, 1, 2, ..., each with the element that is at that index then (or its address). They panic or hang only if a call does, even if the callback writes elements, pushes to the vector or clears it.", "quantifier": "every callback that is Go code and may write any memory, every slice", "why_tests_cant": "all callbacks", "anchors": ["lookup.go:FindIf", "compute.go:CountIf", "transform.go:Transform", "transform.go:ReplaceIf", "transform.go:RemoveIf", "generate.go:Generate", "vector.go:Vector.ForEach", "vector.go:Vector.ForEachIf", "vector.go:Vector.ForEachMutable", "vector.go:Vector.ForEachMutableIf"]}
{"id": "C112", "title": "Pushing to a vector while ForEach goes over it", "statement": "v.ForEach(func(x) { v.PushBack(f(x)) }) ends and appends f of every element that was there, in order.", "quantifier": "every vector, capacity and growth policy, every f", "why_tests_cant": "depends on when the array is moved", "anchors": ["vector.go:Vector.ForEach", "vector.go:Vector.PushBack"]}
{"id": "C113", "title": "Changes that a callback makes to the vector are kept", "statement": "Elements that the callback of Vector.RemoveIf pushes to the vector are in it afterwards. A callback of ForEachMutable that changes its element and pushes to the vector changes all elements of the vector.", "quantifier": "every vector, capacity and growth policy", "why_tests_cant": "depends on when the array is moved", "anchors": ["vector.go:Vector.RemoveIf", "vector.go:Vector.ForEachMutable", "vector.go:Vector.PushBack"]}
{"id": "C114", "title": "Iterators of a DList while the list changes", "statement": "An iterator of a DList stays on its element while the list is pushed to, popped and cleared: IsNotEnd, Value, MoveToNext and Pointer then refer to that element and its neighbours in the list as it is now. After Clear it still goes through the elements it had ahead; when its own element is popped it still has the value, and moving on and reading panics.", "quantifier": "every history on any number of lists and iterators", "why_tests_cant": "all interleavings of changes and iteration steps", "anchors": ["dlist.go:DList.Iterate", "dlist.go:DList.PushFront", "dlist.go:DList.PushBack", "dlist.go:DList.PopFront", "dlist.go:DList.PopBack", "dlist.go:DList.Clear"]}
{"id": "C115", "title": "Callbacks of DList's ForEach methods may use the list", "statement": "The callback of ForEach, ForEachIf, ForEachMutable and ForEachMutableIf may call any method of the list. The loop goes from its element to the one that follows it then: pushing at the back makes ForEach a worklist, pushing at the front does not disturb it, after Clear it still visits all elements that were there. Other lists are not affected.", "quantifier": "every callback that is a program over the methods of the list with a state of its own, every list, every history before and after", "why_tests_cant": "all callbacks", "anchors": ["dlist.go:DList.ForEach", "dlist.go:DList.ForEachIf", "dlist.go:DList.ForEachMutable", "dlist.go:DList.ForEachMutableIf"]}
{"id": "C116", "title": "Popping in a callback of DList.ForEach", "statement": "If the callback of DList.ForEach pops an element of the list, by PopFront or by PopBack, each time it is called, the loop still returns normally.", "quantifier": "every list", "why_tests_cant": "needs an element popped while the loop stands on it", "anchors": ["dlist.go:DList.ForEach", "dlist.go:DList.PopFront", "dlist.go:DList.PopBack"]}
{"id": "C117", "title": "A DList iterator that is not at the end has a value", "statement": "If IsNotEnd of an iterator of a DList returns true, Value does not panic.", "quantifier": "every history on any number of lists and iterators", "why_tests_cant": "all interleavings of changes and iteration steps", "anchors": ["dlist.go:DList.Iterate", "dlist.go:DList.PushBack", "dlist.go:DList.PopFront"]}
{"id": "C118", "title": "Iterators of an SList while the list changes", "statement": "An iterator of an SList stays on its element while the list is pushed to, popped, reversed, cleared or replaced. When its element is popped it goes on to the list as it is now; after Clear, or after a new list was assigned to the variable, it goes through the elements it had ahead. IsNotEnd answers true exactly if Value and MoveToNext do not panic. An iterator at the end stays there.", "quantifier": "every history on any number of lists and iterators, except for writes through iterators to removed elements", "why_tests_cant": "all interleavings of changes and iteration steps", "anchors": ["slist.go:SList.Iterate", "slist.go:SList.PushFront", "slist.go:SList.PushBack", "slist.go:SList.PopFront", "slist.go:SList.Reverse", "slist.go:SList.Clear"]}
{"id": "C119", "title": "Callbacks of SList's ForEach methods may use any list", "statement": "The callback of ForEach, ForEachIf, ForEachMutable and ForEachMutableIf may call any method of any list, also of the one it goes over, and assign new lists to the variables. The loop goes from its element to the one that follows it then, and panics only if the callback does: popping in every round empties the list and visits all of it, pushing at the back makes ForEach a worklist, clearing or replacing the list does not stop the loop, reversing it ends the loop after the first element.", "quantifier": "every callback that is a program over the methods of the lists with a state of its own, every history before and after", "why_tests_cant": "all callbacks", "anchors": ["slist.go:SList.ForEach", "slist.go:SList.ForEachIf", "slist.go:SList.ForEachMutable", "slist.go:SList.ForEachMutableIf", "slist.go:SList.PopFront", "slist.go:SList.Reverse"]}
{"id": "C120", "title": "Iterators and pointers of a SkipList while the map changes", "statement": "Any number of iterators (of Iterate, LowerBound, UpperBound, FindRange) and of pointers (of Find and Pointer) can be used while the map is changed through its methods and through the pointers. An iterator stays on its entry; if that entry is removed it still has its key and value and goes on to the entries that followed; after Clear it goes through the entries it had ahead. IsNotEnd of an iterator without an end of its own answers true exactly if Key, Value and MoveToNext do not panic. A pointer that is not nil stays valid; writes through it are seen by the map while the entry is in it, and by iterators on it in any case.", "quantifier": "every lawful order, every history on any number of iterators and pointers, every random level", "why_tests_cant": "all interleavings of changes, iteration steps and writes", "anchors": ["skiplist.go:SkipList.Iterate", "skiplist.go:SkipList.LowerBound", "skiplist.go:SkipList.UpperBound", "skiplist.go:SkipList.FindRange", "skiplist.go:SkipList.Find", "skiplist.go:SkipList.Insert", "skiplist.go:SkipList.Remove", "skiplist.go:SkipList.Clear"]}
{"id": "C121", "title": "What an iteration over a SkipList that changes shows", "statement": "The keys that an iterator shows are strictly ascending, whatever is done with the map between its steps. An entry that is in the map from the creation of the iterator on is not skipped. The iterator can be moved at most once for each entry that was in the map when it was made and once for each later Insert.", "quantifier": "every lawful order, every history before and between the steps", "why_tests_cant": "all interleavings of changes and iteration steps", "anchors": ["skiplist.go:SkipList.Iterate", "skiplist.go:SkipList.LowerBound", "skiplist.go:SkipList.UpperBound", "skiplist.go:SkipList.FindRange", "skiplist.go:SkipList.Insert", "skiplist.go:SkipList.Remove", "skiplist.go:SkipList.Clear"]}
{"id": "C122", "title": "Entries after the current key of a SkipList iterator are not skipped", "statement": "If an iterator shows a key, then it does not skip an entry with a greater key that is in the map from that moment on.", "quantifier": "every history before and between the steps", "why_tests_cant": "needs a removal of the current entry, an insertion and a step", "anchors": ["skiplist.go:SkipList.Iterate", "skiplist.go:SkipList.Insert", "skiplist.go:SkipList.Remove"]}
{"id": "C123", "title": "FindRange on a SkipList that changes", "statement": "An iterator of FindRange(a, b) with a <= b that is moved only while IsNotEnd is true, and for which IsNotEnd is true, has a key, and the key is at most b.", "quantifier": "every history before and between the steps", "why_tests_cant": "needs the entry after the range to be removed during the iteration", "anchors": ["skiplist.go:SkipList.FindRange", "skiplist.go:SkipList.Insert", "skiplist.go:SkipList.Remove"]}
{"id": "C124", "title": "Removing a range of a SkipList while iterating over it", "statement": "The loop over FindRange(a, b), a <= b, that removes the key of the iterator in each round, before or after moving on, ends and removes exactly the entries with keys from a to b inclusive.", "quantifier": "every lawful order, every map made by any history", "why_tests_cant": "all maps and levels; removal under the iterator", "anchors": ["skiplist.go:SkipList.FindRange", "skiplist.go:SkipList.Remove"]}
{"id": "C125", "title": "Callbacks of SkipList's ForEach methods may use the list", "statement": "The callback of ForEach, ForEachIf, ForEachMutable and ForEachMutableIf may call any method of the list it is called for, use iterators and pointers, and keep the pointer it is given. The loop behaves like an iterator of Iterate that is moved on after each call: it goes from its entry to the one that follows it then, also if its entry was removed or the list cleared. What the client sees afterwards is what the same operations without the loop would give.", "quantifier": "every lawful order, every callback that is a program over the methods, iterators and pointers with a state of its own, every history before and after", "why_tests_cant": "all callbacks", "anchors": ["skiplist.go:SkipList.ForEach", "skiplist.go:SkipList.ForEachIf", "skiplist.go:SkipList.ForEachMutable", "skiplist.go:SkipList.ForEachMutableIf"]}
{"id": "C126", "title": "What ForEach over a SkipList visits while the callback changes it", "statement": "The keys the callback is called with are strictly ascending, whatever it does. An entry that is there before the call is visited unless the callback removes it. If the callback inserts nothing, the loop ends. It panics only if the callback does. A callback that clears the list does not stop the loop; one that inserts a greater key in each round makes it endless.", "quantifier": "every lawful order, every callback that is a program over the methods, iterators and pointers with a state of its own, every history before", "why_tests_cant": "all callbacks", "anchors": ["skiplist.go:SkipList.ForEach", "skiplist.go:SkipList.ForEachIf", "skiplist.go:SkipList.ForEachMutable", "skiplist.go:SkipList.ForEachMutableIf", "skiplist.go:SkipList.Insert", "skiplist.go:SkipList.Remove", "skiplist.go:SkipList.Clear"]}
{"id": "C127", "title": "Wrong answers do not harm a skip list without Remove", "statement": "Whatever a compare function answers, even different answers for the same keys, in a history without Remove no operation of the skip list panics or hangs unless a call of the compare function does. Insert adds one entry or overwrites the value of one entry that was called equal; Find, Has and the bounds show entries that are there; Iterate shows all entries; no key is lost or changes its place among the others, until Clear.", "quantifier": "all compare functions (with state, panicking, hanging, answering anything), all histories without Remove, all random levels", "why_tests_cant": "Only particular wrong answers can be tried; the levels of the list then disagree about the order, and every later search depends on how.", "anchors": ["skiplist.go:SkipList.Insert", "skiplist.go:SkipList.Find", "skiplist.go:SkipList.LowerBound", "skiplist.go:skipListFunc.findInsertPoint"]}
{"id": "C128", "title": "BuiltinSets that change during loops over them", "statement": "Whatever the Go runtime does in loops over maps that change, all results of a history on any number of BuiltinSets are those of mathematical sets. The callback of ForEach and ForEachIf may use all sets, also the one it is called for: it gets, in some order, members of that set that were there at the start and have not been removed, and possibly members inserted since; not one of them twice unless it was removed and inserted again in between; and the loop ends only when none of the former are left.", "quantifier": "every runtime (order of keys, whether entries made during a loop are produced, whether an equal key is replaced), every key type whose == is an equivalence, every history, every callback that is a program over the operations on all sets with a state of its own", "why_tests_cant": "the order and the treatment of entries made during a loop are random; a test sees some of the choices", "anchors": ["builtin_set.go:BuiltinSet.ForEach", "builtin_set.go:BuiltinSet.ForEachIf", "builtin_set.go:BuiltinSet.Update", "builtin_set.go:BuiltinSet.Clear", "builtin_set.go:BuiltinSet.Insert", "builtin_set.go:BuiltinSet.Remove"]}
{"id": "C129", "title": "What ForEach over a BuiltinSet visits while the callback changes it", "statement": "The key that the callback gets is a member of the set at that moment, whatever the callback did before. If the callback does not insert into the set of the loop, the loop ends, no member is visited twice, and every member left at the end has been visited. A callback that removes the members with a property leaves exactly the members without it.", "quantifier": "every runtime, every history before, every such callback", "why_tests_cant": "all orders and all callbacks", "anchors": ["builtin_set.go:BuiltinSet.ForEach", "builtin_set.go:BuiltinSet.ForEachIf", "builtin_set.go:BuiltinSet.Remove", "builtin_set.go:BuiltinSet.Has"]}
{"id": "C130", "title": "ForEach over a BuiltinSet ends", "statement": "ForEach over a BuiltinSet ends if every call of the callback does.", "quantifier": "every runtime, every history before, every callback", "why_tests_cant": "whether a loop that inserts ends is up to the runtime", "anchors": ["builtin_set.go:BuiltinSet.ForEach", "builtin_set.go:BuiltinSet.ForEachIf", "builtin_set.go:BuiltinSet.Insert", "builtin_set.go:BuiltinSet.Update"]}
{"id": "C131", "title": "Linked lists release what is removed from them", "statement": "No chain of pointers from an SList, a DList or a DListQueue leads to anything but one node for each of its elements (and the sentinel of a DList, which stores the zero value), so that removed elements can be collected as soon as they are removed. No node is held by two lists.", "quantifier": "every history on any number of lists", "why_tests_cant": "what a list keeps alive cannot be seen through its methods; it depends on all earlier calls", "anchors": ["slist.go:SList.PopFront", "slist.go:SList.Clear", "slist.go:SList.Reverse", "dlist.go:DList.TryPopFront", "dlist.go:DList.TryPopBack", "dlist.go:DList.Clear", "dlist_queue.go:DListQueue"]}
{"id": "C132", "title": "SkipList releases what is removed from it", "statement": "No chain of pointers from a SkipList leads to anything but one node for each of its entries, so that the keys and values of removed entries can be collected.", "quantifier": "every lawful order, every history, every random level", "why_tests_cant": "what a list keeps alive cannot be seen through its methods; it depends on all earlier calls", "anchors": ["skiplist.go:SkipList.Remove", "skiplist.go:SkipList.Clear", "skiplist.go:SkipList.prevsCache"]}
{"id": "C133", "title": "Iterators of Vectors that change", "statement": "What the iterators of Iterate and IterateRange show while any vectors change is what the arrays say: each iterator stays with a part of the array its vector had when it was made. An iterator for which IsNotEnd is true can be read and written whatever happened; otherwise reading and writing panic. If its vector is only read, reserved, shrunk and appended to, the iterator shows exactly the elements the vector had. An operation that keeps the array shows through the iterator, zero values where elements have gone; one that gives the vector another array leaves the iterator with the old elements, and what is stored through it then reaches no vector.", "quantifier": "every history on any number of vectors and iterators, every growth policy of the runtime, every element type", "why_tests_cant": "whether an operation is seen by an iterator depends on the capacity, which the runtime chooses", "anchors": ["vector.go:Vector.Iterate", "vector.go:Vector.IterateRange", "vector.go:vectorIterator", "vector.go:Vector.PushBack", "vector.go:Vector.Insert", "vector.go:Vector.Clear", "vector.go:Vector.Reserve", "vector.go:Vector.Shrink"]}
{"id": "C134", "title": "Comparisons that panic", "statement": "With an element type whose == can panic (interface types), Find and Index panic exactly if a comparison panics before one is true, Equal exactly if the lengths agree and a pair panics before one differs, Count and RemoveCopy exactly if any comparison with the value panics, Unique and UniqueCopy exactly if a comparison with the first element of the current run does. Find, Index, Count and Equal write nothing; UniqueCopy and RemoveCopy write nothing that was there before. If Replace panics, exactly the elements before the one it panicked at have been treated. If Remove or Unique panics, the elements kept so far are at the start of the slice and all others are where they were.", "quantifier": "every == (an answer or a panic for each pair), every slice and memory, every growth policy", "why_tests_cant": "what is left after a panic depends on where the first bad element is; every == has its own", "anchors": ["compare.go:Equal", "compute.go:Count", "lookup.go:Find", "lookup.go:Index", "transform.go:Replace", "transform.go:Unique", "transform.go:UniqueCopy", "transform.go:Remove", "transform.go:RemoveCopy"]}
{"id": "C135", "title": "Keys that cannot be hashed", "statement": "With a key type whose values cannot all be hashed (interface types), Has, Insert, Remove and Delete of such a key panic and change nothing, also for an empty or a nil set. SetOf, InsertN and RemoveN panic at the first such key when exactly the keys before it have been treated. No other operation panics because of such keys, no set ever has one as a member, and all other results are those of mathematical sets, before and after. == is never asked about a key that cannot be hashed.", "quantifier": "every hashability predicate, every history on any number of sets (nil sets included), every order of iteration", "why_tests_cant": "what a panic leaves behind depends on the position of the bad key and all earlier operations", "anchors": ["builtin_set.go:SetOf", "builtin_set.go:BuiltinSet.Has", "builtin_set.go:BuiltinSet.Insert", "builtin_set.go:BuiltinSet.InsertN", "builtin_set.go:BuiltinSet.Remove", "builtin_set.go:BuiltinSet.RemoveN", "builtin_set.go:BuiltinSet.Delete"]}
{"id": "C136", "title": "String methods", "statement": "String of a BuiltinSet (nil included) is BuiltinSet[name][members], with the name of the key type and each member exactly once, in any order, separated by single spaces; it changes no set and does not panic. If fmt shows keys as words and different keys differently, sets with the same String have the same members. String of a DList and of a DListQueue is DList[name] and Queue[name], whatever the contents. nameOfType gives the name of the type.", "quantifier": "every set, every order of iteration, every type name, every way of showing a key", "why_tests_cant": "the order of a map is random and sets are arbitrary; a test checks the string of a set with one or no order", "anchors": ["helper.go:nameOfType", "builtin_set.go:BuiltinSet.String", "dlist.go:DList.String", "dlist_queue.go:DListQueue.String"]}
{"id": "C137", "title": "Functions of the library agree with each other", "statement": "After Sort, BinarySearch finds exactly what Find found before, LowerBound is the number of smaller elements and UpperBound minus LowerBound is Count. Sort, StableSort, DescSort followed by Reverse, and popping a PriorityQueue of the elements give equal sequences. Two slices are Equal after Sort exactly if Count is the same for every value. Unique after Sort is equal to Keys of a SkipListSet of the elements and as long as Len of a BuiltinSet of them. After Sort the first element is equal to MinN and to Top of a PriorityQueue, the last to MaxN, and MinMaxN gives both. A sorted slice passes IsSorted and IsMinHeap, and Sort leaves a slice that passes IsSorted equal. RemoveCopy shortens by Count, and Index and Count then find nothing. AnyOf, AllOf, NoneOf, FindIf and CountIf agree.", "quantifier": "every slice in every memory, every sort algorithm with the contract of package sort, every ordered type with a strict weak order (types without NaN), all random levels and map orders", "why_tests_cant": "the functions are written separately, often twice; agreement on all inputs needs the correctness of each", "anchors": ["sort.go:Sort", "sort.go:StableSort", "sort.go:DescSort", "binary_search.go:BinarySearch", "binary_search.go:LowerBound", "binary_search.go:UpperBound", "lookup.go:Find", "compute.go:Count", "compare.go:Equal", "transform.go:Unique", "transform.go:Reverse", "transform.go:RemoveCopy", "priority_queue.go:PriorityQueue.Pop", "skiplist_set.go:SkipListSet.Keys", "builtin_set.go:BuiltinSet.Len", "lookup.go:MinN", "lookup.go:MaxN", "heap.go:IsMinHeap"]}
{"id": "C138", "title": "Comparison functions that reach the heap", "statement": "If the comparison function of MakeHeapFunc, PushHeapFunc, PopHeapFunc, RemoveHeapFunc or IsHeapFunc itself uses the heap (writes elements, pushes, pops, assigns the variable), the heap function still only compares and exchanges elements of the slice it started with, ends after the usual number of calls, and panics or hangs only inside a call (or on an empty heap or a bad index, then before anything else). PopHeapFunc and RemoveHeapFunc set the variable to the slice they found there without its last element, so what was assigned during a call is lost; PushHeapFunc keeps it. Cells outside the slice that the comparison function leaves alone are left alone. If it only rearranges the slice, no element is lost or invented. IsHeapFunc writes nothing itself.", "quantifier": "every comparison function, whatever it does to the memory, the heap variable and its own state; every slice", "why_tests_cant": "a test has one comparison function; termination under interference is about all of them", "anchors": ["heap.go:MakeHeapFunc", "heap.go:IsHeapFunc", "heap.go:PushHeapFunc", "heap.go:PopHeapFunc", "heap.go:RemoveHeapFunc"]}
{"id": "C139", "title": "What growing costs", "statement": "Suppose the runtime grows a full array by a quarter at least, as Go's does. Then for every history of one stack, vector or priority queue, all the memory allocated during it is at most five times what its array grew by (for vectors beside the argument slices of Append, and in histories without Reserve, Shrink and Insert); with a policy that at most doubles, it is linear in the number of values added, however many are removed, and whatever panics. While there is room nothing is allocated; Reserve makes that room. Insert at a full array makes one of exactly the size needed whatever the policy, so n insertions, even at the end, allocate n*(2*l+n+3)/2 cells.", "quantifier": "every history of any length from any state, every growth policy, every comparison function and callback", "why_tests_cant": "amortised cost is a property of all histories together", "anchors": ["vector.go:PushBack", "vector.go:Reserve", "vector.go:Insert", "vector.go:RemoveRange", "stack.go:Push", "priority_queue.go:Push"]}
{"id": "C140", "title": "Loops over BuiltinSets inside one another", "statement": "A program may run ForEachIf over any sets with callbacks that again run loops over any sets, the same ones too, and change any sets meanwhile. Whatever the runtime chooses in each of the loops: every loop passes to its callback only members of its set, those that were there at its start at most once while they stay, and ends only when it owes its callback no member or is told to stop; all calls have the results of mathematical sets. A program that inserts nothing into a set while a loop over it runs always ends. Two nested loops, over different sets or one set, get every pair of members exactly once.", "quantifier": "every program with loops nested to any depth, every history before it, every choice of the runtime", "why_tests_cant": "the order of a loop over a map and whether it produces new entries are unspecified, and loops interact through the sets they share", "anchors": ["builtin_set.go:ForEach", "builtin_set.go:ForEachIf", "builtin_set.go:Insert", "builtin_set.go:Remove"]}
{"id": "C141", "title": "Copies of linked lists", "statement": "After b := a for SList or DList structs, a and b are lists of their own: every operation on one leaves what the other shows unchanged, in every history of operations on and copies between any number of lists.", "quantifier": "every history of operations and struct copies, any number of lists and element values", "why_tests_cant": "which lists share nodes depends on the whole history", "anchors": ["slist.go:SListOf", "slist.go:PushBack", "slist.go:Reverse", "dlist.go:DListOf", "dlist.go:PushBack", "dlist.go:TryPopFront"]}
{"id": "C142", "title": "Vectors that share an array", "statement": "After b := a or b := a[lo:hi] two vectors share one array. In every history of operations, copies and parts the contents, capacities and panics are those of windows on arrays: an operation changes what another vector shows only in places of the shared array that it writes, and never after one of them got a new array. A copy is a snapshot while the vector is only read, appended to, reserved and shrunk; a push to both loses the first value exactly when there was room in the shared array.", "quantifier": "every history of operations, copies and parts, any number of vectors, element values, arguments and growth choices of the runtime", "why_tests_cant": "which vectors share which places depends on the whole history and on when the runtime allocates", "anchors": ["vector.go:PushBack", "vector.go:Append", "vector.go:Insert", "vector.go:RemoveRange", "vector.go:Clear", "vector.go:Reserve", "vector.go:Shrink"]}
{"id": "C143", "title": "Comparison functions of the sorts that do more than compare", "statement": "Whatever the comparison function of SortFunc and StableSortFunc does (keeps a state, panics, never returns, writes the slice), the call only compares and exchanges elements of the slice as they are at that moment, and panics or hangs only inside the comparison function. If the comparison function does not write the slice, then the slice has all its elements afterwards, also after a panic, and nothing else changed. If its answers are those of one strict weak order, whatever else it does, the slice is sorted (stably).", "quantifier": "every comparison function as Go code with effects, every slice and memory, every algorithm in place of sort.Sort and sort.Stable that uses only positions of the data", "why_tests_cant": "no finite set of comparison functions covers every panic point and every side effect", "anchors": ["sort.go:SortFunc", "sort.go:StableSortFunc", "sort.go:funcSortable"]}
{"id": "C144", "title": "Memory of a skip list on average", "statement": "If the operations do not depend on the random numbers and these are uniform, then the nodes of the entries of a skip list together store on average at least 7/4 and at most 2 links per entry; in every single case between 1 and 40. A new node of a list with n entries has average level 2 - 2^(1-J), where J = min(40, log2(n)+3) (3 if n = 0) is the highest level it can have.", "quantifier": "every sequence of operations fixed in advance, averaged over all sequences of 64-bit random words; both implementations", "why_tests_cant": "an average over all random choices", "anchors": ["skiplist.go:SkipList.Insert", "skiplist.go:SkipList.randomLevel", "skiplist_newnode.go:newSkipListNode"]}
{"id": "C145", "title": "Iterators and callbacks of a skip list set while it changes", "statement": "In every history of calls of a SkipListSet and of any number of its iterators, the methods of the set behave as those of a sorted set, and the iterators as those of the underlying map. ForEach and ForEachIf whose callbacks call any methods visit strictly ascending elements, visit every element present before that the callback does not remove, end if the callback inserts nothing, and panic only if the callback does.", "quantifier": "every history, every callback that is a program over the methods of the set and its iterators, both implementations", "why_tests_cant": "unbounded interleaving of iteration with changes of the set", "anchors": ["skiplist_set.go:SkipListSet.ForEach", "skiplist_set.go:SkipListSet.ForEachIf", "skiplist_set.go:SkipListSet.LowerBound", "skiplist_set.go:SkipListSet.FindRange", "skiplist_set.go:SkipListSet.InsertN", "skiplist_set.go:skipListSetIterator.MoveToNext"]}
{"id": "C146", "title": "Copies of priority queues", "statement": "After c := *q for a PriorityQueue, q and c are queues of their own: every method called on one leaves what the methods of the other show unchanged, in every history of methods, constructors and copies.", "quantifier": "every history of methods, constructors and struct copies, any number of queues, any elements and orders", "why_tests_cant": "which object a method changes, and which array it reads, depends on the whole history", "anchors": ["priority_queue.go:PriorityQueue", "priority_queue.go:NewPriorityQueue", "priority_queue.go:NewPriorityQueueFunc", "priority_queue.go:Push", "priority_queue.go:Pop", "priority_queue.go:Top", "priority_queue.go:Clear"]}
{"id": "C147", "title": "Copies of stacks", "statement": "After b := *a for a Stack, a and b are stacks of their own: every method called on one leaves what the methods of the other show unchanged, in every history of methods, constructors and copies.", "quantifier": "every history of methods, constructors and struct copies, any number of stacks, any elements and growth of append", "why_tests_cant": "whether a Push overwrites an element of another stack depends on which stacks share an array and how high each reaches", "anchors": ["stack.go:Stack", "stack.go:Push", "stack.go:Pop", "stack.go:TryPop", "stack.go:Top", "stack.go:Clear", "stack.go:Cap"]}
{"id": "C148", "title": "Copies of skip lists", "statement": "After c := *sl for a SkipList, sl and c are maps of their own: every method called on one leaves what the methods of the other show unchanged, in every history of methods and copies; a variable of type SkipList that was never assigned has length 0, can be cleared, and panics in every other method.", "quantifier": "every history of methods of a list and of any number of struct variables and of struct copies, any keys, values, lawful orders and random numbers", "why_tests_cant": "which methods go through the pointer kept in impl, which fields are per copy and which arrays are shared decides what a copy sees, and a wrong Remove shows up only when a drawn level is above that of the list", "anchors": ["skiplist.go:SkipList", "skiplist.go:Insert", "skiplist.go:Remove", "skiplist.go:Clear", "skiplist.go:Len", "skiplist.go:NewSkipList"]}
{"id": "C149", "title": "Containers that do the same job agree", "statement": "A client that uses a container only as a stack sees the same results, panics included, from a Stack, a Vector used at its end, a DList or a DListQueue used at either end and an SList used at its front; a client that uses it only as a queue sees the same results from a DListQueue or a DList used either way round and an SList; a client of a set sees the same flags, sizes, counts and elements up to order from a BuiltinSet and a SkipListSet made from the same elements.", "quantifier": "every history of operations on any number of containers, all elements, initial memories, growths of append, map orders and random numbers", "why_tests_cant": "agreement of independent implementations over all histories", "anchors": ["stack.go:Stack", "vector.go:Vector", "dlist.go:DList", "dlist_queue.go:DListQueue", "slist.go:SList", "builtin_set.go:BuiltinSet", "skiplist_set.go:SkipListSet", "container.go:Queue"]}
{"id": "C150", "title": "A compare function that uses its own skip list", "statement": "If the compare function of a SkipList calls methods of that very list which leave its entries as they are (those that look at it, and Remove of keys that are not there) and always answers according to one order, then no method panics and the list still behaves as a map whenever its methods return; with a guard against recursion they all return, and a compare function that always begins with a lookup in the list never returns.", "quantifier": "every program for the compare function with its own variables, branching on all that the methods show, every recursion depth, every history, any keys, values, lawful orders and random numbers", "why_tests_cant": "the methods are re-entered in the middle of a search, whose intermediate results are kept in a field of the list; what a nested call overwrites shows up only for certain levels, and much later", "anchors": ["skiplist.go:NewSkipListFunc", "skiplist.go:Insert", "skiplist.go:Remove", "skiplist.go:Find", "skiplist.go:LowerBound", "skiplist.go:UpperBound"]}
{"id": "C151", "title": "Loops over DLists inside one another", "statement": "The callbacks of ForEach, ForEachIf, ForEachMutable and ForEachMutableIf may use all lists and iterators and run such loops themselves, to any depth. Every loop behaves like an iterator of its own: it stays on its element whatever the callbacks do, and goes on from there. A callback that only reads the list of its loop, whatever it does with other lists and however it loops over any of them, is called for the elements the list had, in order, until it says stop, panics or hangs; a loop over a second list inside a loop over a first gives all pairs, also if they are the same list.", "quantifier": "every program over any number of lists, iterators and nested loops, with states of their own, at any point of any history", "why_tests_cant": "unbounded nesting of loops and callbacks that change the lists", "anchors": ["dlist.go:DList.ForEach", "dlist.go:DList.ForEachIf", "dlist.go:DList.ForEachMutable", "dlist.go:DList.ForEachMutableIf"]}
{"id": "C152", "title": "Loops over SLists inside one another", "statement": "The callbacks of ForEach, ForEachIf, ForEachMutable and ForEachMutableIf may use all lists and iterators and run such loops themselves, to any depth. Every loop behaves like an iterator of its own and stays on its element. A callback that does not append to the list of its loop, reverse it or write its elements is called for the elements the list had at the start, in order, until it says stop, panics or hangs, also if it pops, pushes at the front, clears or replaces that list; a loop over a second list inside a loop over a first gives all pairs. Loops do not panic by themselves: a program whose calls cannot panic does not panic.", "quantifier": "every program over any number of lists, iterators and nested loops, with states of their own, at any point of any history", "why_tests_cant": "unbounded nesting of loops and callbacks that change the lists", "anchors": ["slist.go:SList.ForEach", "slist.go:SList.ForEachIf", "slist.go:SList.ForEachMutable", "slist.go:SList.ForEachMutableIf"]}
{"id": "C153", "title": "Methods that only look do not write", "statement": "Len, IsEmpty, Cap, At, Back, Front, Top, Values, Keys, String, Has, Find, the bounds, FindRange, Iterate and IterateRange, the iterators' methods other than Pointer, ForEach and ForEachIf, the set predicates, and the searching functions with a callback change nothing, in whatever state the container is and also when they panic, except what their callback or compare function changes. So goroutines that only use these get the answers each would get alone, in whatever order their calls take place. Remove of a SkipList is not one of them even for an absent key: it writes to the list's scratch array.", "quantifier": "every state of every container, also states no sequence of calls leads to; every argument and callback; any number of goroutines and every order of their calls", "why_tests_cant": "all states and all interleavings of calls", "anchors": ["vector.go:Vector.At", "dlist.go:DList.Front", "slist.go:SList.Values", "skiplist.go:SkipList.Find", "skiplist.go:SkipList.Remove", "builtin_set.go:BuiltinSet.Has", "lookup.go:FindIf", "binary_search.go:LowerBoundFunc"]}
{"id": "C154", "title": "Shuffle makes every arrangement equally likely", "statement": "Given that rand.Shuffle asks for swap(i, j) with i = n-1, ..., 1 and j drawn uniformly and independently from 0..i, Shuffle(a) produces each of the n! arrangements of the elements from exactly one of the n! possible draws, so each with the same probability. Where an element goes depends on the draw and its position only, never on the elements, and nothing outside the slice is written.", "quantifier": "every length, every slice content, every draw", "why_tests_cant": "n! arrangements for every n", "anchors": ["transform.go:Shuffle"]}
{"id": "C155", "title": "Rounding error of sums and averages", "statement": "Whenever SumAs[float64] or Sum of n finite floats is finite, it differs from the exact sum by at most ((1+u)^(n-1) - 1) times the sum of the absolute values, u = 2^-53, and so by at most (n-1)u/(1-(n-1)u) times it; it is finite if the absolute values are small enough. float32 results are such a float64 rounded once more, AverageAs[float64] and Average of float64 values have one more rounding. Sums of floats that are not negative are not below any of them. Sums of integers of defined types, which are added as floats, are off by less than 1 plus what n roundings do.", "quantifier": "every slice of finite floats of both types, every length, every order of the elements, subnormal numbers included", "why_tests_cant": "all roundings of all float sums", "anchors": ["compute.go:SumAs", "compute.go:Sum", "compute.go:AverageAs", "compute.go:Average"]}
{"id": "C156", "title": "Average lies between the smallest and the largest element", "statement": "For a non-empty slice of integers or finite floats, Average is not below the smallest and not above the largest element.", "quantifier": "every numeric type and slice", "why_tests_cant": "depends on overflow and rounding", "anchors": ["compute.go:Average", "compute.go:AverageAs"]}
{"id": "C157", "title": "Test helpers complain exactly about what is wrong", "statement": "expectEq, expectNe, expectLt, expectGt, expectLe, expectGe, expectTrue and expectFalse leave the test alone if the relation holds, and otherwise mark it as failed and log one message that shows both values and the relation, whatever the values look like; they return in both cases, so a test logs exactly the messages of the assertions that do not hold. For NaNs all but expectNe complain. expectPanic swallows any panic with a value and complains about f returning, panicking with nil or leaving by Goexit; what f did stays done and no panic gets out.", "quantifier": "every type, value, way of showing values, sequence of assertions, function f", "why_tests_cant": "the tests rely on these functions themselves", "anchors": ["test_helper.go:report", "test_helper.go:reportMismatch", "test_helper.go:expectEq", "test_helper.go:expectNe", "test_helper.go:expectLt", "test_helper.go:expectGt", "test_helper.go:expectLe", "test_helper.go:expectGe", "test_helper.go:expectTrue", "test_helper.go:expectFalse", "test_helper.go:expectPanic"]}
{"id": "C158", "title": "Loops over skip lists inside one another", "statement": "A program that uses any number of skip lists, each with its own order, their iterators, pointers to values and the four ForEach methods, whose callbacks may do all this again, also with the lists of the loops around them, behaves as with sorted maps in which every loop is an iterator that nobody else can name. Whatever the callbacks do, a loop calls its callback with strictly ascending keys and visits every entry that is there at its start and never removed; a program that inserts nothing ends; a callback that only reads the list of its loop is called for exactly its entries in order, so that two loops give all pairs, and inserting into another list sorts the entries by its order.", "quantifier": "every number of lists, compare function, program, nesting of loops, level chosen for a new node", "why_tests_cant": "nested iteration with modification in inner loops is not tested, and the combinations are endless", "anchors": ["skiplist.go:SkipList.ForEach", "skiplist.go:SkipList.ForEachMutable", "skiplist.go:SkipList.ForEachIf", "skiplist.go:SkipList.ForEachMutableIf"]}
{"id": "C159", "title": "A vector kept sorted is a bag and a set", "statement": "If a client inserts into Vectors at UpperBoundFunc, adds in bulk with Append and StableSortFunc, and removes, finds and counts with BinarySearchFunc, LowerBoundFunc, UpperBoundFunc, Remove and RemoveRange, then all results are those of bags: the vector shows the elements in ascending order, equivalent ones in the order of their arrival; a search finds the one that came first; removing takes away exactly the oldest, the newest or those between two bounds; the difference of the bounds is the count and the lower bound the rank. Taking out the first element again and again is a priority queue that is fair to equivalent elements. If BinarySearchFunc comes before every insertion, every history of set operations gives the same results as a SkipListSet.", "quantifier": "every history on any number of vectors, every strict weak order, every growth policy, every stable sort", "why_tests_cant": "the functions are tested one by one and on fixed slices, not in programs that keep an invariant with them", "anchors": ["binary_search.go:UpperBoundFunc", "binary_search.go:LowerBoundFunc", "binary_search.go:BinarySearchFunc", "vector.go:Vector.Insert", "vector.go:Vector.Remove", "vector.go:Vector.RemoveRange", "sort.go:StableSortFunc"]}
{"id": "C160", "title": "Long searches in a skip list are rare", "statement": "Over uniform independent random words, after any fixed sequence of operations with N insertions an operation calls the compare function log2 N + 4 + t times or more with probability at most 4^(log2 N + 3) (2/3)^t / 3, hence 5 log2 N + 12 + 2k times or more with probability at most 2^-k; and the probability that any of M operations of a history does so is at most M 2^-k.", "quantifier": "every sequence of operations with up to 2^38 insertions, every lawful compare function with state, every t and k; all sequences of random words are counted", "why_tests_cant": "a test sees a few seeds; rare slow seeds and the probability of them do not show", "anchors": ["skiplist.go:SkipList.randomLevel", "skiplist.go:SkipList.Insert", "skiplist.go:skipListFunc.findInsertPoint", "skiplist.go:skipListFunc.findNode"]}
{"id": "C161", "title": "Which keys set algebra keeps, and what it costs", "statement": "With keys that are equal but not the same (-0 and +0) or differ from themselves (NaN): Intersection holds the keys of the smaller set (of the argument if neither is smaller) that have an equal in the other one, Difference the keys of the set without an equal in the other, NaN keys always; Union and Update hold, of two equal keys, the old one or, on maps that replace keys, the new one, and all NaN keys of both. The lengths add up. Intersection and IsDisjointOf look up at most as many keys as the smaller set has, Difference as many as the set has, IsSubsetOf none if the set is larger.", "quantifier": "all sets of keys with a symmetric and transitive ==, every order in which maps are walked, both ways of assigning equal keys", "why_tests_cant": "tests use keys that are the same when equal, and cannot see how many lookups were made", "anchors": ["builtin_set.go:BuiltinSet.Intersection", "builtin_set.go:orderSet", "builtin_set.go:BuiltinSet.Difference", "builtin_set.go:BuiltinSet.Union", "builtin_set.go:BuiltinSet.Update", "builtin_set.go:BuiltinSet.IsDisjointOf", "builtin_set.go:BuiltinSet.IsSubsetOf"]}
{"id": "C162", "title": "Laws that relate calls of the slice functions", "statement": "Two calls of Transform do what one call with both callbacks in turn does; Transform with a callback without state and Reverse commute; RemoveIf on the result of RemoveIf returns what one call with 'either predicate' returns and writes nowhere else; RemoveIf, Remove, Unique and Replace done again change nothing; of two calls of Fill the second decides, and Reverse after Fill changes nothing; Reverse, Shuffle, Sort and DescSort leave the Sum of integers, with wrap-around, as it was.", "quantifier": "all slices, memories, callbacks with state, element types, shuffles and sorting programs that meet the contract of the standard library", "why_tests_cant": "tests call each function once on a few literals; that two programs behave the same is a statement about all inputs", "anchors": ["transform.go:Transform", "transform.go:Reverse", "transform.go:RemoveIf", "transform.go:Remove", "transform.go:Unique", "transform.go:Replace", "transform.go:Fill", "compute.go:SumAs"]}
{"id": "C163", "title": "Sorting by several criteria with StableSortFunc", "statement": "StableSortFunc by a second criterion followed by StableSortFunc by a first one leaves exactly what one StableSortFunc by the first criterion, and by the second where the first does not decide, leaves. Once sorted, StableSortFunc by the same criterion changes nothing, whether the slice was sorted by StableSortFunc or by SortFunc.", "quantifier": "all slices, pairs of strict weak orders and stable sorting programs", "why_tests_cant": "stability shows only with many equivalent elements at many places, and short test slices take another path of the standard library", "anchors": ["sort.go:StableSortFunc", "sort.go:SortFunc"]}
{"id": "C164", "title": "Changing the priority of an element of a heap", "statement": "An element of a heap may be overwritten in place by any other value. RemoveHeapFunc at its index then still returns that value and leaves a heap of all others, and pushing the value back with PushHeapFunc gives a heap with the new value in place of the old one; likewise RemoveMinHeap and PushMinHeap. So neither needs the slice to be a heap at the element it removes.", "quantifier": "all heaps, indices, new values greater or less than the old one, strict weak orders", "why_tests_cant": "needs every combination of position and direction of change: the hole may have to be filled from below or the moved element sent up", "anchors": ["heap.go:RemoveHeapFunc", "heap.go:RemoveMinHeap", "heap.go:PushHeapFunc", "heap.go:PushMinHeap"]}
{"id": "C165", "title": "Programs made of priority queues: greatest elements, merging, median", "statement": "A PriorityQueue to which everything is pushed and from which one is popped whenever there are more than k holds the k greatest elements. Popping the list with the least head from a queue of sorted lists and pushing its rest gives all elements in order. Two queues with opposite orders, balanced after every element, have the lower median on top.", "quantifier": "all streams, strict weak orders, values of k and families of sorted lists", "why_tests_cant": "composes many pushes and pops on queues whose heap layout depends on the whole history", "anchors": ["priority_queue.go:PriorityQueue.Push", "priority_queue.go:PriorityQueue.Pop", "priority_queue.go:PriorityQueue.Top", "priority_queue.go:PriorityQueue.Len", "priority_queue.go:NewPriorityQueueFunc"]}
{"id": "C166", "title": "Skip lists with slices or pointers for keys", "statement": "A SkipList made by NewSkipListFunc whose keys are slices compared by Compare is a finite map from what a slice holds at the time of a call, whatever the client writes to memory between calls. Whatever the client changes and whatever the compare function answers, no call panics or hangs, each touches at most one entry, one whose key compares equal then, and Len and iteration agree; as soon as the stored keys are in order again the list is a map of its entries again.", "quantifier": "all histories of calls and changes, states, compare functions, levels drawn", "why_tests_cant": "a test fixes a few keys and never writes a slice after passing it as a key; that nothing breaks for good needs every state the list can be in", "anchors": ["skiplist.go:NewSkipListFunc", "skiplist.go:SkipList.Insert", "skiplist.go:SkipList.Find", "skiplist.go:SkipList.Remove", "skiplist.go:SkipList.ForEach", "skiplist.go:SkipList.LowerBound", "compare.go:Compare"]}
{"id": "C167", "title": "Documented complexities of slice functions and vectors", "statement": "The number of element reads and writes, those inside copy, append and make included, is bounded as documented: at most 2*len(a) for the functions of transform.go that work in place, also for Fill and FillPattern (for Shuffle 4 for each swap); 3*len(a) for those that copy; linear also for TransformTo and UniqueCopy, which append one by one. Vector: PushBack makes one access if there is room, and linearly many together for many calls; Insert moves only what is behind the index if there is room, Remove and RemoveRange what is behind what is removed; the rest is constant or linear as documented. The count is at least the number of cells the call depends on or changes.", "quantifier": "all slices, memories, overlaps, indices (also invalid ones), callbacks, and growth policies of the runtime that grow by a factor", "why_tests_cant": "a quadratic loop gives the same results; timing a few sizes proves no bound", "anchors": ["transform.go:Fill", "transform.go:FillPattern", "transform.go:TransformTo", "transform.go:Unique", "transform.go:UniqueCopy", "transform.go:RemoveIf", "transform.go:RemoveIfCopy", "transform.go:Reverse", "vector.go:Vector.PushBack", "vector.go:Vector.Insert", "vector.go:Vector.Remove", "vector.go:Vector.RemoveRange", "vector.go:Vector.RemoveIf"]}
{"id": "C168", "title": "What the functions that only look at slices look at", "statement": "Find, Index, FindIf, AnyOf, NoneOf and AllOf look at each element up to the first one that settles the answer, in order, and at no other; Count, CountIf, SumAs, Sum, AverageAs and Average at each element once; Equal at nothing if the lengths differ and otherwise at pairs up to the first two that differ; Compare at pairs up to the first two of which one is smaller and at most one more element; IsSorted and IsDescSorted at the elements up to the first that is out of order; MaxN, MinN make len(a)-1 comparisons and MinMaxN twice as many. Generate and Range access each element of their result a constant number of times. All documented complexities of these functions follow.", "quantifier": "all slices, elements, predicates, comparison operators (also of unlawful ones, such as with NaN), numeric types; for Range integers whose difference fits", "why_tests_cant": "looking too far, twice or in another order gives the same results", "anchors": ["lookup.go:Find", "lookup.go:FindIf", "lookup.go:AllOf", "lookup.go:AnyOf", "lookup.go:MaxN", "lookup.go:MinMaxN", "compare.go:Equal", "compare.go:Compare", "compute.go:SumAs", "compute.go:Count", "sort.go:IsSorted", "generate.go:Range", "generate.go:Generate"]}
{"id": "C169", "title": "Index arithmetic of searches and vectors does not overflow", "statement": "LowerBound, UpperBound and their Func variants (and through them BinarySearch, EqualRange) compute with int exactly as with unbounded integers, however long the slice is. Remove, RemoveLength and Insert of a vector behave, for every index and length the caller may pass, as they would with unbounded integers: a sum that overflows never becomes a valid index by accident. Insert of so many elements of size zero that the new length does not fit into int panics and leaves the vector alone.", "quantifier": "all widths of int, all slices whose length fits, all indices and lengths of type int, all elements and comparison functions", "why_tests_cant": "the longest slices and largest indices cannot all be tried; an overflowing midpoint is a classical bug seen only with huge slices", "anchors": ["binary_search.go:LowerBound", "binary_search.go:UpperBound", "binary_search.go:LowerBoundFunc", "binary_search.go:UpperBoundFunc", "vector.go:Vector.Insert", "vector.go:Vector.Remove", "vector.go:Vector.RemoveLength"]}
{"id": "C170", "title": "Operations at the ends of linked lists have to do with a constant number of nodes", "statement": "PushFront, PushBack, PopFront, PopBack, TryPopFront, TryPopBack, Front, Back, Len, IsEmpty and Clear of DList and DListQueue read and write at most three nodes that exist, and those of SList at most one, however long the list is: whatever all other nodes contain, the call has the same result and effect, and leaves them as they are. A push makes one new node, the first push to a DList two. The steps of an iterator read at most one node.", "quantifier": "all heaps of nodes, also those in which the list is damaged; all lists, elements and iterators", "why_tests_cant": "a method that walks the list returns the same results", "anchors": ["dlist.go:DList.PushFront", "dlist.go:DList.PushBack", "dlist.go:DList.TryPopFront", "dlist.go:DList.TryPopBack", "dlist.go:DList.Clear", "dlist_queue.go:DListQueue.PopFront", "slist.go:SList.PushFront", "slist.go:SList.PushBack", "slist.go:SList.PopFront", "slist.go:SList.Back"]}
{"id": "C171", "title": "A heap operation has to do with one path of the tree only", "statement": "PushMinHeap and PushHeapFunc into a slice with room read and write only the new position and the positions above it in the tree; PopMinHeap, PopHeapFunc, RemoveMinHeap and RemoveHeapFunc, and Pop of a priority queue, only the last position and one path from the root with its brothers, which for Remove leads through the index removed; Top only the first element. What is elsewhere in memory neither influences the call nor is changed, and there are at most 2*floor(log2 n)+1 positions on such a path.", "quantifier": "all slices, also such that are not heaps; all elements; all comparison functions, with a state of their own, also inconsistent ones and such that panic or do not return; all positions", "why_tests_cant": "which elements were looked at does not show in the result", "anchors": ["heap.go:PushMinHeap", "heap.go:PopMinHeap", "heap.go:RemoveMinHeap", "heap.go:PushHeapFunc", "heap.go:PopHeapFunc", "heap.go:RemoveHeapFunc", "heap.go:heapUpFunc", "heap.go:heapDownFunc", "priority_queue.go:PriorityQueue.Push", "priority_queue.go:PriorityQueue.Pop", "priority_queue.go:PriorityQueue.Top"]}
{"id": "C172", "title": "A skip list does not remember its history", "statement": "All that later operations on a skip list depend on are its entries and the levels of the nodes they live in. Two lists that agree in this, whatever histories made them, give the same results, panics and hangs for ever, make the same calls of the compare function in the same order, and go on agreeing, if they draw the same random words. The level where searches start is always that of the highest node that is in the list now. Inserting a new key and removing it restores entries, node levels and level, whatever level its node was given.", "quantifier": "all pairs of histories, all further operations and random words; all compare functions that answer like a total order, with a state of their own, also such that panic or do not return", "why_tests_cant": "a level that is left too high, or a stale scratch array, costs comparisons or shows only after further operations", "anchors": ["skiplist.go:SkipList.Insert", "skiplist.go:SkipList.Remove", "skiplist.go:SkipList.Clear", "skiplist.go:SkipList.Find", "skiplist.go:skipListFunc.findInsertPoint", "skiplist.go:skipListFunc.findPrevNodes"]}
{"id": "C173", "title": "Laws that relate calls of the heap functions", "statement": "RemoveHeapFunc at index 0 is PopHeapFunc, call for call and write for write. At the last index it only cuts off the last element, without calling less or writing. MakeHeapFunc changes nothing in a heap, and IsMinHeap(a) is true exactly if MakeMinHeap(a) would change nothing. Pushing an element that is not less than its parent appends it; pushing sorted elements in turn gives the sorted slice. The functions depend on the answers of less only: replacing the elements by others that compare alike gives the same rearrangement, so a heap of structs ordered by a field goes the way of the MinHeap of the fields.", "quantifier": "all slices, also such that are not heaps; all elements, indices and comparison functions, for the first two also such that reach the heap, panic or do not return", "why_tests_cant": "a law relates calls on all inputs", "anchors": ["heap.go:RemoveHeapFunc", "heap.go:PopHeapFunc", "heap.go:PushHeapFunc", "heap.go:MakeHeapFunc", "heap.go:MakeMinHeap", "heap.go:IsMinHeap", "heap.go:RemoveMinHeap", "heap.go:PopMinHeap", "heap.go:PushMinHeap"]}
{"id": "C174", "title": "Goroutines that work on different elements", "statement": "Goroutines that call Fill, FillPattern, FillZero, Transform, Replace, Unique, RemoveIf, Reverse, Sort, MakeHeapFunc, Find, CountIf or LowerBoundFunc at the same time, on slices such that none writes to elements another is given, do not disturb each other: each gets the result or the panic of its call alone, leaves its elements as that call alone would, and ends after as many accesses; other elements keep their values. The final memory does not depend on the interleaving, and two goroutines are never about to access the same element unless both read it, so there is no data race. Overlap of what is only read is allowed, and slices may be parts of one array. Transform on the parts of a slice, each in a goroutine of its own, does what Transform on the whole slice does.", "quantifier": "any number of goroutines, all slices, arguments and functions op, pred and less that have no effects, all interleavings of the single reads and writes, all ways to cut a slice", "why_tests_cant": "there are more interleavings than can be tried, and a race may not show", "anchors": ["transform.go:Fill", "transform.go:FillPattern", "transform.go:FillZero", "transform.go:Transform", "transform.go:Replace", "transform.go:Unique", "transform.go:RemoveIf", "transform.go:Reverse", "sort.go:SortFunc", "heap.go:MakeHeapFunc", "lookup.go:Find", "compute.go:CountIf", "binary_search.go:LowerBoundFunc"]}
{"id": "C175", "title": "Where the searches of a skip list end, whatever the order of its keys", "statement": "In a skip list whose keys may be in any order, because compare obeys no law or because keys were changed behind its back, a search for key that finds nothing has ended at a border: an entry that is too small (or the front) directly before one that is too large (or the end). LowerBound and UpperBound both point behind that border, Insert adds its entry there, Remove returns false. If Find finds an entry it compares equal, LowerBound points to it and UpperBound to the next, Insert overwrites its value. Remove takes an entry that compares equal directly behind one that is too small, or returns false. If the entries are in order as far as this one key can tell, everything works for it, in whatever order the entries are otherwise. Nothing panics or loops for ever.", "quantifier": "all histories of calls, each with a comparison of its own, all keys, all tower heights", "why_tests_cant": "needs arbitrary disorder and histories; a test would have to guess which entry a search comes upon", "anchors": ["skiplist.go:SkipList.Find", "skiplist.go:SkipList.LowerBound", "skiplist.go:SkipList.UpperBound", "skiplist.go:SkipList.Insert", "skiplist.go:SkipList.Remove"]}
{"id": "C176", "title": "The laws of set algebra hold for BuiltinSet", "statement": "Two expressions of any depth made of Union, Intersection and Difference that are equal in the algebra of sets, for instance by De Morgan's, the distributive or the absorption laws, give sets with the same elements and the same Len that are subsets of each other. If one expression implies another, the first result is a subset of the second (IsSubsetOf); if they exclude each other, the results are disjoint (IsDisjointOf). Evaluating them does not change the sets they are made of. No further identities hold: for expressions that are not equal in the algebra of sets there are sets for which the results differ.", "quantifier": "all expressions, all sets (also nil ones and the same set several times), all choices of the Go runtime for the order of map iteration; elements equal to themselves", "why_tests_cant": "there are infinitely many identities, sets and iteration orders", "anchors": ["builtin_set.go:BuiltinSet.Union", "builtin_set.go:BuiltinSet.Intersection", "builtin_set.go:BuiltinSet.Difference", "builtin_set.go:BuiltinSet.IsSubsetOf", "builtin_set.go:BuiltinSet.IsDisjointOf", "builtin_set.go:BuiltinSet.Len", "builtin_set.go:BuiltinSet.Has"]}
{"id": "C177", "title": "What NaN does", "statement": "Max and Min of two floats of which one is NaN return the second, MinMax swaps them, OrderedCompare returns 0. MinN, MaxN and MinMaxN return the first element if it is NaN, otherwise the extremes of the elements that are not NaN. Compare treats a pair with a NaN as equal and goes on; it returns 0 exactly if the lengths agree and every pair is equal or has a NaN, and swapping its arguments changes the sign, but it is not transitive. Find, Index, Count and BinarySearch do not find a NaN, Equal is false if there is one, Remove and Replace of a NaN change nothing, Unique keeps every NaN. For a NaN, LowerBound is 0 and UpperBound the length of any slice, and BinarySearchFunc with Less claims to find it. LowerBound and BinarySearch are right for ascending slices followed by NaNs, UpperBound for ascending slices after NaNs, but not the other way round. A SkipList from NewSkipList does not find or remove a NaN and adds another entry at its end whenever one is inserted; one from NewSkipListFunc with OrderedCompare takes a NaN for a key it has: Insert overwrites that value, Remove removes the first entry.", "quantifier": "all slices of all Ordered types, with NaNs anywhere, all histories of skip lists", "why_tests_cant": "NaN at every position and with every neighbour; other properties are about slices without NaN", "anchors": ["lookup.go:Max", "lookup.go:Min", "lookup.go:MinMax", "lookup.go:MinN", "lookup.go:MaxN", "lookup.go:MinMaxN", "lookup.go:Find", "lookup.go:Index", "compute.go:Count", "compare.go:Equal", "compare.go:Compare", "functor.go:OrderedCompare", "binary_search.go:LowerBound", "binary_search.go:UpperBound", "binary_search.go:BinarySearch", "transform.go:Remove", "transform.go:Replace", "transform.go:Unique", "skiplist.go:SkipList.Insert", "skiplist.go:SkipList.Remove", "skiplist.go:NewSkipListFunc"]}
{"id": "C178", "title": "Only the order of the elements in use matters", "statement": "Binary searches, heap functions, priority queues and skip lists see keys only through comparisons: if the elements are replaced by others that compare alike, searches return the same indices, and histories of queues and skip lists return the images of what they returned, even if the comparison is inconsistent. Therefore the contracts of sorting, stable sorting, searching, heaps, priority queues and skip lists hold already if the comparison is a strict weak order on the elements that are actually used, whatever it does on others. In particular they hold for floats, including infinities, as long as no NaN is used.", "quantifier": "all comparisons, all sets on which they are orders, all slices and histories with elements of that set", "why_tests_cant": "a test uses one type and one order; that nothing outside the set is ever compared, and that a wrong order there does no harm, is a statement about all of them", "anchors": ["binary_search.go:LowerBoundFunc", "binary_search.go:UpperBoundFunc", "binary_search.go:BinarySearchFunc", "sort.go:SortFunc", "sort.go:StableSortFunc", "heap.go:MakeMinHeap", "heap.go:MakeHeapFunc", "heap.go:PushHeapFunc", "heap.go:PopHeapFunc", "heap.go:RemoveHeapFunc", "priority_queue.go:PriorityQueue.Pop", "skiplist.go:NewSkipListFunc", "skiplist.go:SkipList.Insert"]}
{"id": "C179", "title": "NaN in heaps and priority queues", "statement": "MakeHeapFunc and PushHeapFunc never move an element that is neither less nor greater than anything, such as NaN, and pushing one appends it. If the last element is a NaN, Pop and Remove put it in the place of the one removed and move nothing else. What Pop leaves does not depend on the element it removes; so after a NaN is pushed to a queue that is not empty, Pop returns the old top, the next Pop the NaN, and the rest is what one Pop would have left. NaNs at the end of a slice have no part in MakeMinHeap, which makes a heap of the numbers before them with a least element as root. PushMinHeap keeps IsMinHeap true with NaNs anywhere, and if IsMinHeap is true, nothing that has only numbers above it is less than the root. IsHeapFunc is false for every slice of two elements or more that has a NaN. But IsMinHeap may be true although the root is not least, MakeMinHeap may leave a slice that is no heap, and so may PopMinHeap of a heap, after which an element that is not least is popped.", "quantifier": "all slices with NaNs at any positions, all values pushed, all indices removed", "why_tests_cant": "every arrangement of NaNs and numbers in heaps of any size; the heap contracts elsewhere assume there is no NaN", "anchors": ["heap.go:MakeMinHeap", "heap.go:IsMinHeap", "heap.go:PushMinHeap", "heap.go:PopMinHeap", "heap.go:MakeHeapFunc", "heap.go:PushHeapFunc", "heap.go:PopHeapFunc", "heap.go:RemoveHeapFunc", "heap.go:IsHeapFunc", "priority_queue.go:PriorityQueue.Push", "priority_queue.go:PriorityQueue.Pop", "priority_queue.go:PriorityQueue.Top"]}
{"id": "C180", "title": "Goroutines that share a skip list", "statement": "Goroutines may use one skip list at the same time without locks for Find, Has, LowerBound, UpperBound, Len, ForEach, ForEachMutable, and for reading and writing through the pointers that Find returns. In every interleaving of their accesses, whatever they write, links, levels, keys and the length stay as they are. A goroutine at whose values no other writes gets the result it would get alone and is not held up; so Has, LowerBound, UpperBound and Len are never disturbed. If no goroutine writes to a key that another looks at, there is no data race, and the results and the list are those of the calls made one after another, in any order: those of a finite map. If two goroutines add to the value of the same key, an addition may be lost.", "quantifier": "all lists, all numbers of goroutines, all calls, all schedules; all compare functions, except for the finite map, which needs a lawful order", "why_tests_cant": "a test runs few of the interleavings, and the race detector sees only those that happen", "anchors": ["skiplist.go:SkipList.Find", "skiplist.go:SkipList.Has", "skiplist.go:SkipList.LowerBound", "skiplist.go:SkipList.UpperBound", "skiplist.go:SkipList.Len", "skiplist.go:SkipList.ForEach", "skiplist.go:SkipList.ForEachMutable"]}
{"id": "C181", "title": "A skip list behind a lock, and without one", "statement": "If every call on a skip list, Insert, Remove and Clear included, is made between Lock and Unlock of a sync.RWMutex, or between RLock and RUnlock if it is Find, Has, LowerBound, UpperBound, Len or ForEach, then in every interleaving the calls have the effect of being made one after another: there is an order of the completed calls that respects the order of each goroutine, and in which a call that ended before another began comes first, such that all results are those of a finite map. While a goroutine writes no other is in a call, no call panics, and finitely many goroutines are never stuck. Without the lock none of this holds: two Inserts of different keys may both return and one key be missing, or Len be too small, an Insert may panic because another raised the level, and two Removes of one entry may both return true and leave Len at -1.", "quantifier": "all lists that a history builds, all numbers of goroutines, all calls and random numbers, all schedules; the part on locks for all memories and calls", "why_tests_cant": "a test runs few of the interleavings, and bugs that overlap causes show in few of them", "anchors": ["skiplist.go:SkipList.Insert", "skiplist.go:SkipList.Remove", "skiplist.go:SkipList.Clear", "skiplist.go:SkipList.Find", "skiplist.go:SkipList.ForEach", "skiplist.go:SkipList.randomLevel"]}
{"id": "C182", "title": "What calls allocate", "statement": "Functions that work in place allocate nothing, on any slice, vector, heap or list, also one whose invariants are broken: Fill, FillZero, FillPattern, Generate, Transform, Replace(If), Remove(If), Unique, Reverse, Shuffle, the searches, the sorts, making, testing and popping heaps, RemoveRange of a vector. RemoveCopy, RemoveIfCopy, ReverseCopy and TransformCopy allocate once, exactly len(a) elements, whatever append would do; CopyTo and TransformTo allocate nothing if the target has the capacity; Reserve and Vector.Insert allocate exactly what is needed, and only without room; a push allocates only without room. A push to a linked list makes one node (DList one more for the first), Insert of a skip list makes one node when Len grows and otherwise none, and nothing else makes nodes.", "quantifier": "all states, slices, callbacks that do not allocate, comparison and compare functions, growth rules of append, sort algorithms", "why_tests_cant": "a test sees the allocations of some inputs, and benchmarks their average", "anchors": ["transform.go:Fill", "transform.go:RemoveCopy", "transform.go:RemoveIfCopy", "transform.go:ReverseCopy", "transform.go:TransformCopy", "transform.go:CopyTo", "vector.go:Vector.Insert", "vector.go:Vector.Reserve", "vector.go:Vector.RemoveRange", "heap.go:PopMinHeap", "dlist.go:DList.ensureHead", "slist.go:SList.Reverse", "skiplist.go:SkipList.Insert"]}
{"id": "C183", "title": "Containers behind a lock; queues and stacks without one", "statement": "If every call on a container is made between Lock and Unlock of a sync.RWMutex, or between RLock and RUnlock if it only looks, then goroutines see what a single goroutine sees that makes the calls in the order in which they release the lock, however the calls are split into accesses, and finitely many goroutines are never stuck, also if calls panic. For a DListQueue and a Stack these are the results of a sequence; producers and consumers on a queue lose no value, get none twice, and none overtakes another. Calls that only look need no lock while nobody changes the container. Without the lock two pushes may leave one element or a wrong Len, two pops may hand out one element twice, PushBack, TryPopFront and TryPop may panic, Len may be -1, and Pop may panic on a stack that is never empty.", "quantifier": "all numbers of goroutines, all calls, all schedules, all histories before; the general part for all containers", "why_tests_cant": "a test runs few of the interleavings, and bugs that overlap causes show in few of them", "anchors": ["dlist_queue.go:DListQueue.PushBack", "dlist_queue.go:DListQueue.TryPopFront", "dlist.go:DList.PushBack", "dlist.go:DList.TryPopFront", "stack.go:Stack.Push", "stack.go:Stack.TryPop", "stack.go:Stack.Pop"]}
{"id": "C184", "title": "Nil functions", "statement": "The library does not test whether a function it is given is nil (MakePoolWithNew excepted), so it panics when it first calls one. Given nil, the functions that look at, change or search a slice return on an empty slice what they return on it for any function; on any other they panic before they change an element. Making and testing a heap does so with more than one element. A push to a heap panics unless the heap was empty, but the element is added; popping works with one or two elements, and removing for the last element or the first of two; otherwise they panic after two elements were exchanged. NewPriorityQueueFunc(nil) and NewSkipListFunc(nil) return containers. Every history on such a queue is that of a list where only the first push and a pop from one or two go well; every history on such a map is that of a map with room for one entry, where every method that is given a key panics once it has one and changes nothing, and Clear makes room again.", "quantifier": "all slices, heaps, memories, element types; all histories, also after panics", "why_tests_cant": "a test passes nil to few functions and stops at the first panic", "anchors": ["priority_queue.go:NewPriorityQueueFunc", "skiplist.go:NewSkipListFunc", "heap.go:PushHeapFunc", "heap.go:PopHeapFunc", "heap.go:RemoveHeapFunc", "transform.go:Transform", "lookup.go:FindIf"]}
{"id": "C185", "title": "Infinities and NaN in sums and averages", "statement": "The sum of a float slice is NaN if the slice has a NaN or both infinities, is that infinity or NaN if it has one, and is not NaN if all values are finite, also if it overflows. Exactly: it is NaN if and only if there is a NaN, or both infinities, or the sum of the finite values before the first infinity overflowed to the other one. The average of a non-empty slice is NaN if and only if the sum is, and an infinity in the slice makes it that infinity or NaN. So both depend on the order of the elements.", "quantifier": "every float slice (averages: of up to 2^53 elements, or 2^24 for a defined float32), predeclared or defined types, all result types", "why_tests_cant": "all positions and orders of special values, and overflow in between", "anchors": ["compute.go:SumAs", "compute.go:Sum", "compute.go:AverageAs", "compute.go:Average"]}
{"id": "C186", "title": "How often a sort has to compare", "statement": "Whatever algorithm keeps the contract of sort.Sort or sort.Stable: SortFunc and StableSortFunc of n elements, in any order, call a consistent comparison function at least n-1 times; for every n some arrangement of n different elements takes at least log2(n!) calls; and with a nil comparison function they panic for two or more elements, with the elements of the slice at most rearranged and nothing else changed.", "quantifier": "every algorithm that keeps the contract, every length, all element types and orders", "why_tests_cant": "all algorithms and all arrangements at once: no run of one algorithm shows a lower bound", "anchors": ["sort.go:SortFunc", "sort.go:StableSortFunc"]}
{"id": "C187", "title": "Sorting with the heap functions", "statement": "Making a heap of a slice with MakeHeapFunc, the comparison turned round, and popping every element with PopHeapFunc does to memory and to the comparison function exactly what SortFunc would do with heap sort in place of sort.Sort, also when the comparison function is inconsistent, panics or hangs. This heap sort keeps the contract of sort.Sort. So it takes at least n-1 and at most 2n + 2n*log2(n) calls, for some arrangement at least log2(n!); and as making the heap takes at most 2n of these, some heap of n elements takes at least log2(n!) - 2n calls to be emptied.", "quantifier": "every slice, comparison function with a state, and length", "why_tests_cant": "all slices, all comparison functions, and lower bounds for every length", "anchors": ["heap.go:MakeHeapFunc", "heap.go:PopHeapFunc", "sort.go:SortFunc"]}
{"id": "C188", "title": "How many comparisons a search takes, and that none does with fewer", "statement": "LowerBoundFunc and UpperBoundFunc in n elements call the comparison function at least floor(log2(n+1)) and at most floor(log2 n)+1 times, never if n is 0, whatever the elements and the answers are, and BinarySearchFunc calls it exactly once more than LowerBoundFunc unless that returns the end; both numbers are reached, the greater when the place is in front of all elements and the lesser when it is behind them. No other way to find either place by comparing elements with each other or with the value, right for every ascending list of n integers, has a smaller worst case.", "quantifier": "every slice, value, comparison function, and every search program", "why_tests_cant": "all lengths, and a lower bound over all programs", "anchors": ["binary_search.go:LowerBoundFunc", "binary_search.go:UpperBoundFunc", "binary_search.go:BinarySearchFunc"]}
{"id": "C189", "title": "MinN, MaxN and the tests of order make no comparison too many; MinMaxN does", "statement": "Whoever finds the least or the greatest of n different integers by comparing them makes at least n-1 comparisons in every single case, and so does whoever tells that they are in ascending order, or a heap, in every case in which they are. MinN and MaxN make exactly n-1 comparisons, IsSorted, IsDescSorted and IsHeapFunc never more, so none of them can be improved. MinMaxN makes exactly 2(n-1), and can be: 3*floor((n-1)/2) comparisons, and two more if n is even, suffice for both, fewer as soon as n is 3.", "quantifier": "every program that compares elements, every length and input", "why_tests_cant": "a lower bound over all programs", "anchors": ["lookup.go:MinN", "lookup.go:MaxN", "lookup.go:MinMaxN", "sort.go:IsSorted", "sort.go:IsDescSorted", "heap.go:IsHeapFunc"]}
{"id": "C190", "title": "How many comparisons it takes to tell whether a value is there, and that none does with fewer", "statement": "BinarySearchFunc in n elements calls the comparison function never if n is 0, otherwise at most floor(log2 n)+2 times, and exactly that often whenever no element is less than the value. Every program that tells whether a value is in an ascending list of n>0 integers by comparing elements with each other or with the value needs that many comparisons for some list and value, though it need not say where the value is. In an unordered list there is no way around the elements: whoever tells by tests of equality whether a value is there makes at least n of them in every case in which it is not and the elements are different; Find and Index never make more.", "quantifier": "every slice, value, comparison function, and every search program", "why_tests_cant": "a lower bound over all programs", "anchors": ["binary_search.go:BinarySearchFunc", "lookup.go:Find", "lookup.go:Index"]}
{"id": "C191", "title": "Which elements have to be looked at, and that the library looks at no more", "statement": "Every way to find the sum of integers of a Go integer type (wrapping as Sum does), the number of elements that equal a value or meet a condition, or the least or greatest integer looks at every element, in every single case. So does every way to find that all elements meet a condition or none does, that a value is not there, that a list equals a given one (Equal, Compare), or that two or more integers are in ascending or descending order, in every case in which that is so. Sum, Count and CountIf look at each element exactly once, in order; Find, Index, FindIf, AnyOf, NoneOf and AllOf look at a part of the slice from its start on, at each element in it once.", "quantifier": "every program that looks at elements, every length and input", "why_tests_cant": "a lower bound over all programs", "anchors": ["compute.go:Sum", "compute.go:Count", "compute.go:CountIf", "lookup.go:Find", "lookup.go:FindIf", "lookup.go:Index", "lookup.go:AllOf", "lookup.go:AnyOf", "lookup.go:NoneOf", "lookup.go:MinN", "lookup.go:MaxN", "compare.go:Equal", "compare.go:Compare", "sort.go:IsSorted", "sort.go:IsDescSorted"]}
{"id": "C192", "title": "The fewest comparisons that find the least and the greatest, and how many more MinMaxN makes", "statement": "Every program that finds both the least and the greatest of n different integers by comparing them makes at least ceil(3n/2)-2 comparisons in some case, and for every n > 0 a program that takes the elements in pairs makes exactly that many in every case, for equal integers too. MinMaxN makes floor(n/2) more than that, whatever the elements, their order and the laws of < are.", "quantifier": "every program that compares elements, every length and input", "why_tests_cant": "a lower bound over all programs", "anchors": ["lookup.go:MinMaxN"]}
{"id": "C193", "title": "How few states of the random generator leave arrangements out of Shuffle's reach", "statement": "However the calls of swap are computed from the state of the random generator, if it has S states then at least n!-S arrangements of n distinct elements are never the result of Shuffle, so with fewer than n! states not every arrangement is possible: from 13 elements on with the 2^31-1 seeds of math/rand, from 21 on with 64 bits of state. With n! states every arrangement can be reached.", "quantifier": "every way of computing the swaps from the state, every number of states, length and content", "why_tests_cant": "all generators and n! arrangements for every n", "anchors": ["transform.go:Shuffle"]}
{"id": "C194", "title": "Shuffle and Reverse make as few swaps as possible", "statement": "However swaps of two elements are chosen, moving the first of n distinct elements behind the others takes at least n-1 of them, and n-1 swaps are enough for every arrangement: Shuffle makes exactly n-1 calls of swap, whatever is drawn. If the elements at k positions are others than before, at least k/2 swaps were made; so reversing n distinct elements takes at least floor(n/2), and Reverse makes exactly that many, those of the mirrored positions.", "quantifier": "every sequence of swaps, every length and content", "why_tests_cant": "a lower bound over all sequences of swaps", "anchors": ["transform.go:Shuffle", "transform.go:Reverse"]}
