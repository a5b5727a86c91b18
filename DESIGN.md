# Formal model of chen3feng/stl4go in Lean 4 — design

Layout of `/verif/lean/Verif`:

| directory | content |
|---|---|
| `Model/` | executable model, function by function, each definition cites `/repo` file:lines |
| `Spec/`  | small independent specifications (sortedness, heap order, abstract map, sequence, ...) |
| `Proofs/` | helper lemmas and invariants |
| `Props/` | the property theorems `Cnn_*` only, with non-vacuity examples beside them |

`/verif/properties.jsonl` holds the properties, `/verif/MANIFEST.json` says which theorems settle which property,
`/verif/seeded/LOG.jsonl` records the wrong programs the theorems were tried against. `/verif/tools` has the scripts that
generate the first two, check the citations and run the mutations.

## Modelling conventions

* **Outcome of a call.** `Outcome α = ret a | panic | diverge` for functions whose state at a panic is not
  observable, `GoM σ α = σ → Res σ α` with `Res = ok a s | panic s | diverge` where the state *at the moment of
  the panic* matters (a caller may `recover`). Loops are structural recursions on a fuel argument; running out of
  fuel is the distinct outcome `diverge`, so *termination is a theorem*, never an assumption. A `range` loop over a
  slice is a recursion on its fixed length and needs no fuel.
* **Panics.** Every slice/array index and pointer dereference in the model is checked and produces `panic` when
  Go would panic. No `get!`, no default values.
* **Integers.** Lengths and indices are `Nat` where the code cannot make them negative, `Int` where the caller
  supplies them. Unbounded unless the property is about wrap-around (C13, C51, C59, C60, C71-C74, C85, C169), where two's complement
  arithmetic of the type's width is modelled explicitly. `int`, `uint`, `uintptr` have the width `w` of the platform: theorems hold for
  every `w` with 32 ≤ w ≤ 64 unless they name one.
* **Ordered types.** `GoOrd` carries Go's `<` and `==` as Boolean functions with no laws; `a > b` is `b < a`,
  `a >= b` is `b < a || a == b` (right for IEEE floats too). `LawfulGoOrd` states that `<` is a strict weak order and
  `==` is its incomparability. That covers all integers, strings and floats other than NaN (with -0 == +0). NaN is
  covered by the unlawful instance `NanInt`, used for refutations and for the theorems that need no law.
* **Comparable.** `==` is a pure total function, except in `Model/PanicEq`, where it may panic as it does for interface types that hold
  uncomparable values.
* **Compare functions.** `less : T → T → Bool`, `cmp : K → K → Int` are arbitrary pure functions; laws are hypotheses. In
  `Model/HeapMem` `less`, and in `Model/SkipListM` the key comparison, is Go code with its own state that may panic or hang.
  It may not use the container it is called from, except in `Model/SkipListReenter`.
* **Slices.** `heap.go`, `binary_search.go`, `compare.go`, `lookup.go`, `priority_queue.go` touch one slice, or only read, so they are
  modelled on the list of visible elements (heap.go and priority_queue.go on memory as well, for C94-C100). `transform.go`, `vector.go`, `stack.go`, `generate.go`, `sort.go` are modelled on a memory: one
  flat address space `Mem{cell,top}`, a slice header `Sl{off,len,cap}`, so overlap and sharing are expressible. Slicing never passes the
  capacity, hence no slice reaches another array. `append`'s growth policy is a parameter `grow`; the memory is unbounded.
* **Linked structures.** `DList`, `SList`, `SkipList` are modelled on a heap of nodes with explicit pointers
  (`Option Nat`), statement by statement; nothing is abstracted to a list in the model. Nodes are never freed.
* **Maps.** A Go map is a reference to a list of keys; iteration order and whether an assignment replaces the stored key are an oracle
  `MapRt`, of which only fairness (the order is a permutation of the keys) is assumed.
* **Floats.** Every finite float32/float64 is a whole number of units of 2^-1074, i.e. an integer; one rounding function (nearest-even)
  covers normal and subnormal numbers, overflow gives an infinity. The sign of zero is dropped (it only matters as a divisor, and the
  only divisor in `/repo` is a converted length). Out-of-range float→integer conversions are an oracle `oob`.
* **Library code.** `sort.Sort`/`sort.Stable`, `rand.Shuffle`, the random source, `sync.Pool` are universally quantified
  parameters with their documented contract as the only assumption. The sort contract is shown satisfiable in `Proofs/SortWitness`.
  Only C154 assumes more: `rand.Shuffle` calls `swap(i, j)` for i = n-1, …, 1 with j uniform in 0..i and independent.
* **Callbacks** have a state of their own (`σ → T → σ × …`), so how often, in which order and with what they are called is observable.
  In `Model/Callback` (slices, vector), `Model/HeapMem` and `Model/SkipListM` they are Go code that may also panic, hang and, in
  `Model/Callback`, write any memory of the element type and assign to the vector.

## Modelled and not modelled

| file | modelled | left out |
|---|---|---|
| binary_search.go | all (twice: on lists, and on memory with an effectful `less`; the bounds also with wrapping index arithmetic, `Model/IndexWrap`) | |
| builtin_set.go | all (`String` in `Model/Strings`), the rest twice: `Model/BuiltinSet` with loops over the keys at the start, `Model/BuiltinSetLive` with Go's rules for maps that change during a loop and callbacks that use all sets; the operations that take keys a third time in `Model/BuiltinSetHash`, where keys may be unhashable; set algebra with a count of lookups and assignments in `Model/BuiltinSetCost` | in `Model/BuiltinSet` keys added to a map during a loop over it are not visited by that loop (only `s.Update(s)` with NaN can add any) |
| compare.go, functor.go | all (`compare.go` also with a record of what is looked at, `Model/Looks`) | |
| compute.go | all (`CountIf` also with an effectful callback; all also in `Model/Looks`) | |
| container.go, iterator.go, doc.go | interfaces only, no code | |
| dlist.go, dlist_queue.go | all | `length` wrapping after 2^63 pushes |
| generate.go | all (`Generate` also with an effectful callback; both also with accesses counted in `Model/GenerateCost`) | |
| heap.go | all (on lists in `Model/Heap`, on memory with an effectful `less` in `Model/HeapMem`, with a `less` that can write the heap it compares in `Model/HeapAny`) | |
| helper.go | all | of fmt and reflect: how an element is shown and what a type is called are parameters; formats other than text, `%s` and `%v` |
| lookup.go | all (the functions with a callback also with an effectful one; those on slices also in `Model/Looks`) | |
| pool.go | all | address reuse by the garbage collector; calls are atomic steps |
| priority_queue.go | all (likewise) | |
| skiplist.go, skiplist_newnode.go | all (copies and zero values in `Model/SkipListCopy`) | memory layout of a node (array behind the node), seeding of the generator |
| skiplist_set.go | all | |
| slist.go | all | |
| sort.go | all | |
| stack.go | all | |
| test_helper.go | all | `t.Helper` (line numbers); how `fmt` shows values is a parameter |
| transform.go, transform_fillzero_*.go | all (the functions with a callback also with an effectful one, and with element accesses counted in `Model/SliceCost`) | |
| types.go | the numeric kinds, defined types included | complex numbers (no function takes them) |
| vector.go | all (likewise; `Insert`, `Remove`, `RemoveLength` also in `Model/IndexWrap`) | |

Also out of scope: wall-clock performance, memory consumption other than the cells and nodes that calls allocate (C139, C182), and what the Go memory model says of programs with data races. Goroutines
are modelled by interleaving single reads and writes, for calls on slices (C174), skip lists (C180, C181), queues and stacks (C183); calls of `Pool` interleave as wholes.

## Tests of the model

`Verif/Tests` transcribes the unit tests of the repository and runs them on the model (`decide +kernel`): 218 of the 229 tests of `*_test.go`, each with its
lines. They are tests, not proofs, and no claim rests on them. They guard the one thing no theorem here can, namely that the definitions do what
the Go functions do: an edit of a definition that contradicts a unit test no longer builds. Not transcribed are the benchmarks, the tests that only
check that something compiles (`*_Interface`, `Test_MakeVector`), and `TestSkipList_level`, which is about the real random generator (C144).

## Plan per property

* C01-C06 binary search: fuel loop with `(loc,count)`; invariant "everything before loc is <, everything from
  loc+count on is not"; comparison counter carried by an instrumented copy proved equal to the plain one.
* C07-C14, C82 heap: list with checked index/swap; sift-down/up invariants "heap except at one node"; permutation by swap, which needs no
  law of `less` (C82). C13 by wrapped arithmetic on `Int`. C14 by instrumented copies, and `C05_calls`/`C14_calls` without instrumentation: a variable of the comparison function counts (from C110 and C138). C09 is refuted by a concrete heap.
* C15-C16 priority queue: refinement to a multiset (list up to permutation) by induction on the history.
* C17-C32 skip list: node heap; invariant "there is a strictly sorted list of node ids such that every level's
  link of a node is the first later id of sufficient level"; refinement to an abstract finite map; random levels are
  an arbitrary input stream of 64-bit words. C20, C21, C30, C32 are refuted by concrete executions, the true part proved.
* C33-C39, C83 lists: node heap; invariant ties the pointer chain to a list of ids/values; refinement to `List`; frame lemmas for
  independence.
* C40-C49, C84 vector, stack: memory of backing arrays; refinement to `List`, frame lemmas.
  C42, C43, C45 (Shrink), C47, C84: refuted by concrete executions, true part proved.
* C50-C58 transform: loops over the memory = `map`/`filter`/`reverse`/... on the contents; C53 refuted (overlap), with the exact results for an overlapping destination (C53_overlap).
* C59-C61, C85 generate: numeric kinds with wrapping; C59, C60, C85 refuted in general, true part proved.
* C90-C93 SkipList with a comparison that obeys no law: a search ends at a split of the level-0 list that depends only on which
  nodes say go/stop/hit (`Proofs/SkipListPath.lean`); Insert, Find and Remove reach the same split. The comparison must be pure.
* C94-C100 heap and priority queue on memory, `less` as Go code with state, panics and hangs: Hoare-style lemmas for an arbitrary `less`
  (`Proofs/HeapMem`), refinement to the list model when its answers are consistent. C97, C100 refuted, true part proved.
* C101-C104 SkipList with a compare function that is Go code: each operation makes exactly the calls of the pure search and then does
  what the pure model does (`Proofs/SkipListM`), so a panic leaves the list as it was; counting lemmas for the calls. C104 refuted.
* C127 SkipList with any answers but without `Remove`: each level is a chain of its own (`Bag`), `Insert` puts the node into each somewhere.
* C105 SkipList, average cost: the levels of the nodes are a function of the operations and the words (`Proofs/SkipListLevels`); a passed
  node of level `l` is matched with the word sequence in which it is higher, which counts them without probability theory
  (`Proofs/SkipListCount`; besides it only `Proofs/SkipListMemory`, `Spec/FloatError` and `Proofs/FloatError` import Mathlib). Assumes independent uniform 64-bit words, one for each operation.
* C106-C109 callbacks with a state of their own that panic or hang: each loop equals the sequence of calls on the contents (`callsUntil`) and
  a write of the answers so far. C107 refuted, true part proved.
* C110 binary search with any `less`: the answers pin down the position; one lemma about the common loop.
* C111-C113 callbacks that write memory: each loop equals a sequence of calls by index; pushing callbacks by induction over the elements
  left, with the vector grown in place or moved. C113 refuted, true part proved.
* C114, C117 DList iterators under change: every iterator is a position in the list, or the chain of removed elements it still sees;
  invariant over histories with any number of lists and iterators. An iterator remembers its list variable by position in the history;
  assigning a new list to the variable ends the claim. C117 refuted, true part proved.
* C115, C116 DList callbacks that use their list: callbacks are programs over the list's methods (`DProg`) with a state of their own; the
  loop is simulated by a position in the list of elements (`DWalk`). Callbacks that use other lists or loop themselves are in C151. C116 refuted.
* C118, C119 SList iterators and callbacks under change: as for DList, but an iterator does not know its list, so that popping, reversing and
  replacing the list are covered, and callbacks may use all lists. An iterator is a run of removed nodes that ends in the live list.
* C120 SkipList iterators and pointers under change: an iterator is a run of removed nodes that ends in the live list; simulation by a sorted
  list of entries, a list of removed entries and places in them (`SCSpec`), over all histories.
* C121-C124 consequences proved on `SCSpec`: order of the keys, entries that stay, number of steps, ends of ranges, removal of ranges. C122 and
  C123 refuted, true part proved.
* C125, C126 SkipList callbacks that use their list: programs over methods, iterators and pointers (`SProg`); the loop is one more iterator
  of `SCSpec` (`SWalk`). C126 is proved on `SWalk`.
* C62-C64, C89 sort: `sort.Sort`/`sort.Stable` as programs over `Len/Less/Swap` satisfying their documented contract.
* C65-C70 compare/lookup: direct.
* C71-C74, C86-C88 compute: w-bit wrapping integers; float path on units of 2^-1074. C72-C74 refuted, true part proved.
* C75-C80 builtin set: Go map as list of keys with Boolean key equality, arbitrary iteration order. C79 refuted (NaN).
* C128-C130 builtin set with loops over maps that change: entries have numbers, so that a key that comes back is a new entry; the runtime picks any
  entry a loop has not produced yet. Callbacks are programs over the operations on all sets (`BProg`); the loop is simulated by the members it
  owes and the members inserted since (`BWalk`). C129 is proved on `BWalk`. C130 refuted, true part proved.
* C131, C132 what a container keeps alive: `Spec/Retained` defines by induction which nodes pointers from the fields of a container reach.
  C131: the representation invariants of the lists say that these are the nodes of the elements. C132: invariant on the cache of the skip list
  (each slot holds a node of the list that reaches this level, or a node of a list that was cleared); refuted by `Clear`, true parts proved.
* C133 vector iterators: the specification keeps all arrays a vector has had (`VArrays`) and iterators as places in them. `Vec.exec_exact` gives the
  exact memory after each operation; the simulation places the arrays in memory, apart from each other.
* C134 comparisons that panic: `Model/PanicEq` has the nine functions for `comparable` types again with an `==` that answers or panics; each
  loop is proved equal to a recursive function on the contents; C134_total: without panics they are the functions of the other models.
* C135 unhashable keys: `Model/BuiltinSetHash` has the operations on map keys with a check in front; as long as all keys in maps can be hashed
  (an invariant) and no bad key is given, an operation equals that of `Model/BuiltinSet` (a relation closed under bind), so C75 carries over.
* C136 `String`: `fmt.Sprintf` as an interpreter of formats with text, `%s` and `%v`, `reflect` and the showing of an element as parameters. The result is computed; that spaced words determine the list is an induction on the first word.
* C137 agreement: ascending lists with the same counts are equal element by element (induction); each function is replaced by what its own property says. The statements use no specification, only functions of the library.
* C138 interfering comparison functions: `less` is any computation over memory, its own state and `*heap`. Spec: the relation `Acts` (calls of `less` on two elements of the slice, and exchanges, nothing else); each loop is shown to be such a run with a bound on the calls, by induction on fuel. Consequences by induction on the run. With a `less` that does not reach the heap the functions are those of `Model/HeapMem`.
* C139 cost of growing: allocated memory is the growth of `Mem.top`. Potential argument: five times the capacity pays for everything allocated; every operation, returning or panicking, keeps the account (a small Hoare logic, `Sat`, over the memory monad), then induction on the history. `Insert` is computed exactly. Go's own policy is shown to satisfy the hypotheses.
* C140 nested loops: the state of the specification has a stack of running loops, each with what it owes; an operation concerns all of them. Simulation: every loop of the stack is in the relation of C128 with its own start and its own produced entries, preserved by each operation, by structural induction on the program and on the fuel of each loop. Termination: entries not yet produced decrease.
* C141 copies of linked lists: histories with `v_i = v_j`; false of the code. Partial: who shares with whom is a relation followed from the history; if lists that share are not relinked (`SList`: `PushBack`, `Reverse`; `DList`: any change), copies behave as sequences of their own. Invariant: all variables hold their sequences on one heap; those that share have the same last node (`SList`) or are equal structs (`DList`), others have disjoint nodes. Also shown: what goes wrong outside the condition, for every such history.
* C142 vectors that share arrays: the specification has numbered arrays, and every variable is a window of one. Simulation: an injective placement of the arrays in memory; operations in place and operations with a new array come from the exact vector lemmas of C133. From the specification: fair histories are sequences of their own, snapshots, no effect after a move, the exact effect of one operation on a copy, a push to both.
* C143 sorts with a comparison function that is any Go code: state and steps of C138 (`Acts`, `HeapRuns`). Induction on the program that stands for `sort.Sort`: every step is a call with two elements of the slice or an exchange; invariants of both kinds of step carry over. With answers of a strict weak order the run follows the run on a list. Assumed of the algorithm: `SortsInside` (positions of the data only, whatever the answers), or the contracts of C62 and C63.
* C144 links of a skip list: the level of each entry is a function of the word of its insertion and of the length then (`replay`, as for C105), so the average is a sum over entries of average levels; a word gives level j or more with probability 2^(1-j) if the length allows it.
* C145 sets with iterators: each method of the set has the effect of a program over the map's methods, so a history of set calls is a history of map calls (C120), and a callback of the set is a callback of the map (C125, C126).
* C146 copies of priority queues: false of the code, `impl` of the copy points to the copied queue. Exact (`PQCRun`): `Push` and `Pop` through a copy act on the copied queue, `Len`, `IsEmpty` and `Clear` know the length of the copy only, `Top` reads the first slot of the array the queue had when it was copied. Invariant: every queue holds its elements on memory of its own; a copy holds a prefix of the present array or of one left behind, whose first slot is remembered. Partial: histories in which copies are only snapshots, as queues of their own; derived from the exact specification.
* C147 copies of stacks: false of the code, a copy shares the array. Exact (`KShared.run`): arrays with all their slots, a stack is an array and a height; `Push` stores at the height if there is room. Simulation (`KSim`): arrays apart in memory. Partial: histories in which nobody pushes below the top of another stack on the same array, as stacks of their own; consequences after every history (`Pop` and `Push` on a copied stack change the copy; `Push` to both).
* C148 copies of skip lists: false of the code, a copy searches through `impl`, which points to the list. As it is (`SharedMap.run`): one map, a counter for each. The invariant of skip lists is stated with a drift `d` between the counter and the number of entries (`SLInvD d`, C17 has `d = 0`), methods of a copy keep it. Partial: histories in which a copy gets new keys only on levels that both have; after every such history a new key on a higher level cannot be removed any more, `Remove` panics.
* C149 interchange: the operations of a client are translated to the methods of each container; the specifications of C49, C40, C33, C36 and C37 are related by reversal or identity step by step. For sets, the strictly ascending list of C31 lists (`Lists`) the membership function of C75, kept by each operation; `Len`, `InsertN` and `RemoveN` agree as a set has one size.
* C150 a compare function that uses its own list: false of the code, a nested `Remove` of an absent key overwrites the previous nodes found by the outer `Insert`. `Model/SkipListReenter` has the compare function act on the whole state, `CmpCode` is a syntax for its programs. If it only looks, then on a list that does not change it is a compare function with a state of its own (`frozen`), and C101-C104 apply at each depth; a guard bounds the depth, without one the recursion has no end.
* C151 DList loops inside one another: client code is a program over all lists, iterators and loops (`EProg`), the callbacks are such programs again. A loop is one more iterator of the specification of C114, with an odd number, so that the client cannot name it (`EProg.spec`); simulation by induction over the program. Programs that only read a list leave it and the loops over it where they are (`Kept`), which gives the visits by induction.
* C152 SList loops inside one another: as C151, over the specification of C118. What an iterator has ahead of it is left alone by everything but appending, reversing and writing (`LCur.after_rest`), and never becomes empty by a call (`AliveL`), so that the loops cannot panic.
* C153 looking without writing: `OnlyLooks obs x` says that `x` keeps `obs` of every state; it is closed under sequencing, so one induction per loop is enough. Calls of goroutines are taken one after another (`serve`); calls which overlap in time are the subject of C174 (slices) and C180 (skip lists); for the other containers that they do not disturb each other either is not stated in Lean, it follows from none of them writing. A write of the value that is already there would not be noticed.
* C154 fairness of Shuffle: `FYDraws n js` are the numbers that may be drawn, `allDraws n` lists them, `fyPairs` are the swaps asked for. By induction on the length: the last position gets its element from exactly one draw of j, and swapping is its own inverse, so the rest is a shorter slice. That the draws are uniform and independent is trusted (library code).
* C155 rounding errors: the exact numbers are fractions (Mathlib's ℚ). One rounding moves a number by at most u times itself (`rnd_off`; sums of float64 are never too small for that, as they are whole numbers of units). Invariant of the loop (`Near`): the total is off by at most (1+u)^m - 1 times the sum of the absolute values so far. The first addition is exact.
* C156 averages between the elements: false for int64 (overflow) and for floats (rounding only). Proved for integers whose sum does not overflow (so for all slices of small types), for integral floats with exact sums, and for any two floats: a nearest float is on the same side of every float as the number itself, and doubling is exact.
* C157 test helpers: a `*testing.T` is what was logged and whether the test failed. `Rel.Holds` says what the operators mean, `Complains` what a failed assertion does; the theorems are case distinctions, and an induction over the assertions of a test. Panics with nil and `Goexit` are told apart from other panics, as `recover` returns nil for both.
* C158 nested loops over skip lists: as for C151, a loop inside `d` others is iterator `2 * d + 1` of the map in the specification (`SNProg.spec`), those of the client have even numbers; the invariant of the iterators (C104, C112) is carried through programs by induction on them. What loops visit and that they end follows in the specification from a relation between the states before and after client code inside `d` loops (`SNRel`): keys ahead of a loop only get more at the end, kept entries stay ahead, and without insertions there is no more room.
* C159 sorted vectors: client programs over the models of `Vector` and the searches (`SV.exec`) are related to bags kept in the order of arrival (`SBag.step`) by "sorted, and for every x the equivalent elements are the same in the same order" (`BagRep`), of which C63 says that it determines the vector; the bounds cut the list by C01 and C02. The set in a sorted vector refines the specification of C31.
* C160 long searches: the calls of an operation are at most the nodes passed plus the levels plus one (`calls_source`, as in C105). The words are independent (`sum_redraw`), so going back from the key the sum of `(3/2)^passed` over all words obeys a recurrence with the highest level so far as its state (`sum_recs`); nodes that the length of the list kept from being higher are few (`closedAt_few`) and cost a factor 4/3. Markov's inequality gives the tail (`card_passes`), the union bound the history.
* C161 keys kept and costs: without reflexivity of `==` the keys of a map still have no two equal ones at different places (`NoTwins`), so assigning them one by one to a map without equals appends them (`assign_apart`), and to one with equals replaces or keeps (`assign_keys`). Keys with an equal on the other side are as many on both sides (`among_count`). `Model/BuiltinSetCost` is the same code counting lookups and assignments; each loop gets a closed form.
* C162 laws of slice functions: each function is already known as "write this list over the slice" (`transform_eq`, `reverse_eq`, `fill_eq`, C55, C56), so a law is an equation between lists (`mapS_mapS`, `rejectS_rejectS`, `collapse_idem`) plus the fact that memories which agree on the slice and are untouched elsewhere are equal (`OnlyIn.same`).
* C163 several criteria: stable sorting determines the result (C63), so it suffices that the list sorted stably twice is sorted stably by `thenBy` (`stably_thenBy`).
* C164 changed priority: the proof of C12 needs the heap property only away from the index, and between its children and its parent (`removeHeapFunc_but`); both are left alone by the change.
* C165 programs of queues: `PQ.Good` (heap, given order) through `Push` and `Pop`; loop invariants `KeptGreatest` (none thrown away is greater than one kept), `pending` (what is still to come is a permutation of heads and rests), `Halves` (sizes equal or one more below, everything below not greater than anything above).
* C166 keys that are references: the invariant of C90 (`SLLoose`) does not mention the compare function, so it outlives any change; with the keys in order in the present state it is the invariant of C01 (`SLInvD.resort`). For slices: `Compare` is lawful in every memory (from C66), and `SMap.step` commutes with replacing keys by contents (`step_mapKeys`).
* C167 documented complexities: each function once more over primitives that count (`Model/SliceCost.lean`), in a logic that relates it to the function of the model, bounds the count and collects a list of addresses, no longer than the count, outside which memory neither matters nor changes (`Within`; composition is `Within.bind`). Loops by induction; `Fill` because `min (len - j) j + (len - 2j)` is at most `len - j`; appending loops by the potential `pushCost`.
* C168 what is looked at: the functions once more in a monad that records element reads, comparisons with their operands and calls (`Model/Looks.lean`); the exact record by induction on the rest of the slice, as `visit e l k` with `k` characterised by `Until`. `Generate` and `Range` in the style of C167 (`Model/GenerateCost.lean`).
* C169 index arithmetic: the same functions once more with every sum and difference reduced to `w` bits (`Model/IndexWrap.lean`); the two agree since every intermediate value fits, or since both panic at the same place.
* C170 footprints: two executions from states that differ only outside the nodes `L` run in step (`Spec/Footprint.lean`); a relational rule for sequencing, and then statement by statement, with `L` read off the state.
* C171 heap paths: `Sees` of C167 for the memory model of heaps, with the addresses restricted to positions above or beside the end of a path; the end is chosen while the execution goes down. Counting: ancestors are quotients by powers of two.
* C172 history of skip lists: the level is 1 or that of a linked node (invariant; `Remove` lowers it until it meets a node); the keys a search looks at as a function of keys and levels alone (`pureOuter`, induction along `Linked`); then both lists step together (`SameShape`).
* C173 heap laws: equality of the programs with a comparison function that reaches everything; induction over the loops, commuting with `List.map`.
* C174 goroutines: a call is a tree of single reads and writes (`Thread`), `interleave` runs many in an order a schedule gives. A tree that stays within its cells cannot tell the others are there, by induction over the schedule; `run_thread` shows that the tree run at once is the model of the function used elsewhere. Modelled are sequentially consistent accesses of whole elements (what Go promises for programs without data races, which `C174_race` shows these to be), functions that do not allocate, and callbacks without effects. `copy` reads all it copies before it writes.
* C175 borders: without an order the only thing a level-by-level search keeps true is that the last node it passed was too small and the one it stops at is not. At level 0 that is a border. Uses the looser list invariant of C90 (`SLLoose`), which does not mention keys.
* C176 set algebra: expressions as a small inductive type, evaluated by the calls of the model, and a truth-table meaning; induction over the expression with C76. NaN elements break it (`C176_nan`).
* C177 NaN: a class `FloatOrd` of what `<` and `==` of all `Ordered` types obey, with the float model of C86 (`Flt`, which does not tell -0 from +0) and all lawful types as instances; then inductions over the loops, and C175 for skip lists.
* C178 renaming: every function commutes with a map of the elements that preserves comparisons (inductions over loops, over histories for queues and skip lists); a slice with elements of a set is the image of one over the subtype, where the contracts proved before apply.
* C179 NaN in heaps: inert elements take no part in exchanges; sifting in a prefix ignores what is behind it; the proof for Push needs transitivity of "not less" only through elements that compare with something.
* C180 goroutines on a skip list: as C174, with accesses to fields of the list and its nodes (`SGThread`). No access writes anything but values, so all lists reached have the same `blank`; a goroutine stays within the values that its call looks at, which depends on the links only. Modelled are calls that do not relink; `Insert` and `Remove` write the shared `prevsCache` and are not safe to overlap with each other (C181). A link `next[i]` is one access, slice headers and `impl` none; compare functions and callbacks are pure.
* C181 skip lists and locks: the body of a call is a tree of accesses (`Steps`); `Model/SkipListLocked.lean` splits `Insert`, `Remove` and `Clear` into accesses, with `prevs` in the shared cache, and running one alone is proved equal to the one-step function, for all lists. The lock is modelled by its documentation (many readers or one writer) and is not code of the repository. Invariant over schedules: the log is a serial execution that leads to the memory that a quiet lock guards, a writer's rest run from the present memory gives what its call gives from there, a reader's rest likewise and it does not write. The calls that overlap without a lock are concrete schedules, shown by evaluation. Memory is sequentially consistent, as in C174 and C180.
* C182 allocation: the memories of the model only grow, and their size is what has been allocated. `Makes μ k x` (`Spec/Allocates.lean`) says that from every state the call makes the measure grow by exactly `k`, by at most `k` if it panics. It is closed under sequencing; each loop is an induction, and the copies need that the header of the result keeps length + rest ≤ capacity. Slices that are not in the memory of the model (the result of `Values`, the argument lists of variadic functions) and interface values are not counted.
* C183 locks: `Guards` says that the bodies of the calls, run alone, do what a step function says; with C181 for any calls, the log is a run of that step function. `Model/Guarded.lean` splits the methods of the queue and the stack into accesses, and each is proved to do alone what the method does on every heap, so the histories of C36 and C49 apply. The counterexamples are single schedules, evaluated.
* C184 nil functions: a call of a nil function is the computation that panics and changes nothing, and it is put for the function in the models of C106 to C109 (slices), C110 (binary searches), C99 and C138 (heaps, queues) and C101 (skip lists). Heaps: each function is followed up to its first comparison. Queue: by induction over the history, with the heap slice as the list. Skip list: a nil comparison agrees with every comparison, as it never returns, so the constant comparison gives the invariant with at most one entry, and C101 says that the first call ends an operation; on a non-empty list there is a first call.
* C185 infinities and NaN: the loop of `SumAs` is a fold of the float64 addition; by induction NaN stays, an infinity stays or becomes NaN, and finite values of the type never give NaN. The slice is split at the first value that is not finite. Averages divide by a positive finite number, which keeps infinities and NaN and makes neither.
* C186 lower bounds for sorting: a program is run on the positions of the elements instead. If it compared fewer than n-1 pairs, some positions would not be connected with the others by compared pairs, and putting all of them first or all of them last changes no answer, so the one result would be sorted both ways. For log2(n!), all arrangements end in the same list, and each call splits the arrangements still possible in two; exchanging elements keeps them different. The nil case follows from the first: there is a comparison before the end, and the first call panics.
* C187 sorting with heaps: `heapSortProg` is the algorithm in positions. By induction over the loops, running it as `SortFunc` does equals running the heap functions, for every comparison function of the client. The contract follows from C98 and from the fact that the program stays inside; then C186 gives the lower bounds and C14 the upper one.
* C188 comparisons of a search: the loops of `LowerBoundFunc` and `UpperBoundFunc` with a counting comparison function are one bisection `bisect`; its count is bounded by induction with `log2 n = log2 (n/2) + 1`. Optimality: a program (`SearchProg`) that asks at most k questions on a family of values gives at most 2^k different results, but the even numbers among the odd ones have n+1 different places.
* C189 fewest comparisons: with fewer than n-1 comparisons the graph of compared positions is not connected (the lemma of C186); moving one component below all others leaves every answer as it was, but changes what is least, and makes what was in order or a heap neither. The counts of the library are those of C168; `minMaxFrom` takes elements in pairs, by induction.
* C190 comparisons to tell whether a value is there: the calls of `BinarySearchFunc` are those of `bisect` (C188) and one more. Optimality: among 1, 3, ..., 2n-1 each of the values 0, ..., 2n gets answers of its own, since a value between two that get the same answers gets them too (`SearchProg.between`), and of two neighbours only one is there; k questions tell at most 2^k values apart (`SearchProg.few_leaves`). Unordered: with fewer than n tests some position is not compared with the value, and the value can be put there without any answer changing (`SearchProg.not_touched`).
* C191 looks at elements: a program (`ReadProg`) that does not look at a position gives the same answer when the element there is changed (`ReadProg.run_set`); for each function of the library the element at any position can be changed so that the result changes, by the theorems about its result (C65, C68 to C71). The looks of the library are those of C168.
* C192 the least and the greatest: an adversary that keeps for each element what the answers so far leave open (`SoFar`: nothing known, only greater, only lesser, both) and may still change it accordingly. It answers so that each comparison takes at most 2 of a total weight that starts at 3n (`adversary`, `AskProg.against`); as long as more than 4 is left, two elements can still be made the greatest, or the least (`two_left`). Enough: `minMaxFrom` of C189 after a first pair.
* C193 few states: the results over all states are a list of length S; the arrangements given by `allDraws` are `n!` different ones (C154, `arrangements_nodup`), and those not among the results are the missed ones (`nodup_fits`: a list without repetitions is not longer than one that has all its members). Enough states: number the members of `allDraws n`. That `rand.Seed` reduces the seed modulo 2^31-1 is a fact about the standard library and not modelled; the theorem holds for any number of states.
* C194 fewest swaps: k swaps connect the n positions into at least n-k groups (`groups_left`, by merging labels), and an element stays in the group of its position (`shuffleL_from`); moving the first element to the end connects all positions, so n-k is at most 1. A position in no swap keeps its element (`shuffleL_keeps`), which gives the bound by the number of moved elements. The loop of Reverse is the list of swaps `mirrorPairs` (`reverseLoop_swaps`). Swaps outside the slice panic (`shuffle_ok`), so nothing is assumed of the pairs.
* C81 pool: sync.Pool as a nondeterministic multiset, invariant over all interleavings of calls.

## Where the code disagrees with its documentation

Each has a counterexample theorem (a concrete execution of the model) and a `_partial` theorem with what is true.

| property | behaviour |
|---|---|
| C09 | `IsHeapFunc` rejects heaps that have an element equivalent to its parent |
| C20, C32 | `FindRange(first,last)` yields a key equal to `last` |
| C21 | `FindRange(first,last)` with `last < k < first` for some key runs past the end and panics |
| C30 | a NaN key is never found again and hides other keys |
| C42 | `v.Insert(i, v[j:k]...)` with j > i inserts elements after they were moved |
| C43 | `RemoveRange(i,j)` with j < i panics after changing the vector |
| C45 | `Shrink` leaves spare capacity if the allocator rounds up |
| C47 | `IterateRange(i,j)` reaches beyond `Len` up to `Cap` |
| C53 | `TransformTo` with b inside a overwrites elements before reading them: `op` gets its own earlier results (C53_overlap) |
| C59, C85 | `Range` panics when `last-first` is negative or wraps |
| C60 | `Range` of floats never ends from 2^53 (float64) or 2^24 (float32) on |
| C72 | `Sum` of a defined integer type goes through float64 |
| C73, C74 | `Average` converts sums and lengths to a type that may not hold them; `AverageAs[int8]` of 256 elements divides by zero |
| C79 | `Clear` leaves NaN keys |
| C84, C97 | `Stack` and `PriorityQueue` keep popped elements in their array |
| C104 | wrong answers of the compare function during `Remove` make a later `Remove` panic, bring a removed key back, or make `Find` hang |
| C107 | after a panic in the callback, `RemoveIf` called again yields some elements twice, `Transform` transforms some twice |
| C113 | what the callback of `Vector.RemoveIf` pushes is lost; `ForEachMutable` writes to the old array once a push has moved the vector |
| C116 | `DList.ForEach` panics with a nil pointer when the callback pops the element the loop stands on |
| C117 | an iterator of an empty zero `DList` says it is not at the end after the first push, and panics |
| C122 | a `SkipList` iterator on a removed entry goes to the key that followed at the removal, past keys inserted since |
| C123 | an iterator of `FindRange` runs past its end and panics when the first entry after the range is removed meanwhile |
| C130 | `BuiltinSet.ForEach` with a callback that inserts may go on forever; so may `s.Update(s)` if `s` has a NaN |
| C132 | `SkipList.Clear` does not clear `prevsCache`: entries of the cleared list stay reachable |
| C141 | a copy of an `SList` (`b := a`) shares nodes: after `a.PushBack`, `b.Values` panics; copies of a `DList` show each other's elements with the old `Len`, popping returns zero values |
| C146 | a copy of a `PriorityQueue` (`c := *q`) still points to `q`: `c.Push` adds to `q` and not to `c`, `c.Pop` takes from `q`, `c.Top` may show what was pushed to `q` later |
| C147 | a copy of a `Stack` (`b := *a`) shares the array: after `a.Pop()` and `a.Push(x)`, `b.Top()` is `x` |
| C148 | a copy of a `SkipList` (`c := *sl`) shares nodes and searches through the list: `c.Insert(k, v)` makes `sl.Has(k)` true with the old `sl.Len()`, and if the drawn level is above that of the list, `Remove(k)` panics |
| C150 | a compare function that calls `Remove` of an absent key of its own list during `Insert` overwrites `prevsCache`: `Insert` links wrongly and a later `Remove` panics, though all answers were right |
| C156 | the average of ten times 0.1 is 0.09999999999999999, and of the largest int64 twice it is -1 |
| C166 | a `SkipList` stores the slice it is given for a key, not what it holds: after the client writes that slice, the entry may be found neither under the old contents nor under the new ones |

## Trusted base

* The Lean 4.33.0 kernel.
* Axioms: at most `propext`, `Classical.choice`, `Quot.sound` (Lean's standard ones). No `sorry`, no added axiom, no `native_decide`,
  no `bv_decide`. Which of the three each theorem uses is listed below (`tools/gen_axioms.py`, from `#print axioms`).
* The reading of the Go code into `Model/`, the meaning given to Go's slices, maps, floats and panics in `Model/Basic`, `Model/Slice`,
  `Model/Numeric`, `Model/BuiltinSet`, `Model/BuiltinSetLive`, and the contracts of library code listed above.

### Axioms per theorem

<!-- axioms:begin -->
* `propext, Classical.choice, Quot.sound` (653): C01_lowerBoundFunc_partition, C01_lowerBound_partition, C02_upperBoundFunc_partition, C02_upperBound_partition, C03_binarySearchFunc, C03_binarySearch, C04_bounds_total, C04_ordered_bounds_total, C04_search_total, C04_ordered_search_total, C05_lowerBound_cost, C05_upperBound_cost, C05_calls, C05_counter, C06_equal_range, C07_makeHeapFunc, C07_makeMinHeap, C08_isMinHeap_iff, C08_isMinHeap_root, C08_isMinHeap_makeMinHeap, C10_pushHeapFunc, C10_pushMinHeap, C11_popHeapFunc, C11_popMinHeap, C12_removeHeapFunc, C12_removeMinHeap, C13_wrapping_sift_down, C14_calls, C14_counter, C14_push_cost, C14_pop_cost, C14_remove_cost, C14_make_cost, C15_newPriorityQueueFunc, C15_newPriorityQueue, C15_newPriorityQueueOn, C15_panic_iff_empty, C16_drain_sorts, C17_history, C17_spec_is_map, C18_iterate, C18_iterate_find, C18_forEach, C18_forEach_record, C19_bounds, C20_findRange_partial, C21_findRange_partial, C22_total, C23_randomLevel, C24_func_eq_ordered, C25_fromMap, C25_order_independent, C26_find, C26_write, C26_stable, C27_forEachIf, C27_forEachMutable, C27_forEachMutableIf, C28_sweep, C28_remove_all, C29_clear, C30_insert_has_partial, C31_history, C31_setOf, C31_sorted, C31_forEach, C31_forEachIf, C32_bounds, C32_findRange_partial, C33_history, C33_panics, C33_panic_keeps, C34_visit, C34_mutable, C34_mutableIf, C34_pointer, C35_independent, C35_frame, C36_history, C36_fifo, C37_history, C37_panics, C38_reverse, C38_ends, C38_involutive, C38_push_after, C39_visit, C39_mutable, C40_history, C40_history_from, C41_at, C41_set, C41_insert, C41_remove, C41_back, C42_insert_partial, C42_insert_inPlace, C42_append, C43_removeRange_partial, C43_reversed, C44_clean, C44_clean_step, C45_reserve, C45_shrink_partial, C45_observed_partial, C46_frame, C46_disjoint, C46_independent, C46_rest, C46_append_moves, C47_iterateRange_partial, C48_iterate, C48_iterate_update, C48_forEach, C48_forEachIf, C48_forEachMutable, C48_forEachMutableIf, C49_history, C49_empty, C49_rest, C49_lifo, C50_copyTo, C51_fill, C51_fillZero, C51_fillPattern, C51_fillPattern_panics, C51_fill_huge, C52_transform, C52_transform_map, C52_transformCopy, C52_transformTo, C53_transformTo_partial, C53_overlap, C54_replace, C54_replaceIf, C55_unique, C55_uniqueCopy, C56_remove, C56_removeCopy, C56_removeIf, C56_removeIf_filter, C56_removeIfCopy, C57_reverse, C57_involution, C57_reverseCopy, C58_shuffle, C59_range_partial, C60_counterexample, C60_int_partial, C60_none_partial, C60_float_partial, C60_float_exact, C60_infinite, C60_unbounded, C60_float_integral, C60_endless, C61_generate, C62_sortFunc, C62_sort, C62_descSort, C62_check, C63_stableSortFunc, C63_stableSort, C63_descStableSort, C70_noneOf, C71_sumAs, C71_sum, C72_sum_partial, C72_small, C73_average_partial, C73_average_exact, C73_panics, C74_defined_partial, C74_panics, C75_history, C76_union, C76_intersection, C76_difference, C76_reachable, C80_operand, C81_exclusive, C81_exclusive_withNew, C81_no_new, C82_any_less_make, C82_any_less_push, C82_any_less_pop, C82_any_less_remove, C83_independent, C84_slots_partial, C84_exact, C85_equal_partial, C85_narrow_partial, C85_exact, C86_sumAs, C86_exact, C87_float64, C87_float32, C87_empty, C89_sortFunc, C89_others, C90_history, C90_step, C91_insert_find, C92_insert_then_find, C92_needs_self, C93_insert_then_remove, C94_make, C94_push, C94_pop, C94_remove, C94_ordered, C95_make, C95_push, C95_pop, C95_remove, C95_ends, C96_effects, C97_counterexample, C97_slots_partial, C97_exact, C98_heapsort, C98_queue, C99_history, C99_rest, C100_counterexample, C100_window_partial, C100_full_partial, C101_history, C101_any, C101_total, C101_findRange, C102_arguments, C103_cost, C103_any, C104_reads_partial, C105_average, C105_defined, C105_history, C105_levels, C106_removeIf, C106_removeIf_keeps, C106_vector_removeIf, C106_transform, C106_replaceIf, C106_generate, C107_counterexample, C107_counterexample_transform, C107_removeIf_partial, C107_replaceIf_partial, C107_transform_partial, C108_findIf, C108_anyOf, C108_noneOf, C108_allOf, C108_countIf, C108_forEach, C108_forEachIf, C108_calls, C109_removeIfCopy, C109_transformCopy, C109_transformCopy_other, C109_transformTo, C109_transformTo_other, C110_lowerBound, C110_upperBound, C110_binarySearch, C111_findIf, C111_anyOf, C111_noneOf, C111_allOf, C111_countIf, C111_transform, C111_generate, C111_replaceIf, C111_removeIf, C111_forEach, C111_forEachIf, C111_forEachMutable, C111_forEachMutableIf, C112_forEach_push, C113_removeIf_partial, C113_forEachMutable_partial, C113_forEachMutable_room_partial, C113_counterexample, C113_counterexample_mutable, C114_history, C114_rest, C114_popped, C115_forEachMutableIf, C115_forEachMutable, C115_forEachIf, C115_forEach, C115_worklist, C115_pushFront, C115_clear, C116_popFront_panics, C116_popBack_partial, C116_counterexample, C117_usable_partial, C118_history, C118_rest, C118_usable, C119_forEachMutableIf, C119_forEachMutable, C119_forEachIf, C119_forEach, C119_panics, C119_popFront, C119_transfer, C119_append, C119_detach, C119_worklist, C119_reverse, C120_history, C120_rest, C120_usable, C120_pointer, C121_ascending, C121_unskipped, C121_bounded, C122_present_partial, C122_removed, C123_range_partial, C124_erase, C125_forEachMutableIf, C125_forEachMutable, C125_forEachIf, C125_forEach, C126_ascending, C126_visited, C126_ends, C126_panics, C126_clearing, C126_endless, C127_history, C127_total, C127_kept, C128_history, C128_forEachIf, C128_forEach, C129_member, C129_visits, C129_sieve, C130_forever, C130_counterexample, C130_ends_partial, C130_old, C130_update_nan, C131_slist, C131_slist_apart, C131_dlist, C131_dlist_apart, C131_dlistqueue, C132_counterexample, C132_no_clear_partial, C132_partial, C132_remove_partial, C133_history, C133_usable, C133_one, C133_growing, C133_moved, C134_find, C134_count, C134_equal, C134_replace, C134_remove, C134_unique, C134_removeCopy, C134_uniqueCopy, C134_total, C135_history, C135_members, C135_unasked, C136_set, C136_determines, C136_lists, C137_search, C137_sorts, C137_bags, C137_distinct, C137_extremes, C137_sorted, C137_remove, C137_quantifiers, C138_make, C138_push, C138_pop, C138_remove, C138_isHeap, C138_ends, C138_outside, C138_elements, C139_room, C139_reserve, C139_insert, C140_nested, C140_ends, C140_pairs, C141_slist_partial, C141_dlist_partial, C141_slist_pushBack_partial, C141_dlist_shared_partial, C142_history, C142_own, C142_asVector, C142_snapshot, C142_moved, C142_one, C142_both, C143_runs, C143_panics, C143_effects, C143_stable, C143_elements, C144_average, C144_nodes, C144_level, C145_history, C145_methods, C145_forEachIf, C145_forEach, C145_ascending, C145_visited, C145_ends, C145_panics, C146_counterexample, C146_exact_partial, C146_snapshots_partial, C146_shares_partial, C147_exact_partial, C147_own_partial, C147_over_partial, C147_both_partial, C148_counterexample, C148_shared_partial, C148_panics_partial, C149_stacks, C149_queues, C149_sets, C150_counterexample, C150_reads_partial, C150_guarded_partial, C150_findRange_partial, C150_endless, C151_programs, C151_visits, C151_pairs, C151_transfer, C152_programs, C152_visits, C152_calm, C152_pairs, C153_set, C154_draws, C154_distinct, C154_positions, C155_float64, C155_finite, C155_float32, C155_gamma, C155_nonneg, C155_defined, C155_averageAs, C155_average, C156_int_partial, C156_small_partial, C156_integral_partial, C156_two_partial, C157_relations, C157_bools, C157_tests, C157_panic, C157_contained, C157_kept, C158_programs, C158_ascending, C158_ascending_mutable, C158_visited, C158_ends, C158_visits, C158_pairs, C158_transfer, C159_history, C159_others, C159_fifo, C159_set, C160_tail, C160_rare, C160_history, C160_defined, C161_count, C162_transform, C162_reverse, C162_removeIf, C162_again, C162_unique, C162_replace, C162_fill, C162_sum, C163_keys, C163_again, C164_remove, C164_fix, C164_min, C165_greatest, C165_merge, C165_median, C166_intact, C166_ordered_partial, C166_recovers, C166_compare, C166_slices_partial, C166_counterexample, C167_inPlace, C167_fill, C167_copies, C167_appending, C167_vector_one, C167_vector_all, C167_insert, C167_append, C167_remove, C167_pushes, C168_generate, C169_insert, C169_insert_overflow, C171_push, C171_pop, C171_remove, C171_min, C171_queue, C171_few, C171_push_keeps, C172_level, C172_calls, C172_forever, C172_detour, C173_test, C174_alone, C174_results, C174_progress, C174_order, C174_parallel, C175_missed, C175_found, C175_remove, C175_absent, C175_present, C176_eval, C176_identity, C176_inclusion, C176_only, C177_lookup, C177_bounds, C177_nan_last, C177_nan_first, C177_transform, C177_newSkipList, C177_newSkipListFunc, C178_search, C178_sort, C178_stable, C178_heap, C178_queue, C178_skiplist, C178_float_sort, C178_float_heap, C178_float_queue, C178_float_skiplist, C179_stay, C179_last, C179_root, C179_twice, C179_tail, C179_push_keeps, C179_above, C179_numbers_first, C179_queue, C180_alone, C180_structure, C180_results, C180_progress, C180_rest, C180_serial, C180_race, C180_map, C181_serial, C181_order, C181_exclusive, C181_finish, C181_alone, C181_map, C181_map_finish, C182_copies, C183_guarded, C183_finish, C183_queue, C183_queue_finish, C183_fifo, C183_stack, C183_stack_finish, C184_make, C184_push, C184_pop, C184_remove, C184_queue, C184_queue_one, C184_queue_len, C184_skiplist, C185_infinity_exact, C185_finite, C185_nan_iff, C185_averageAs, C185_average, C185_average_infinity, C186_least, C186_worst, C186_nil, C187_program, C187_contract, C187_calls, C187_worst, C187_drain, C188_calls, C188_extremes, C188_optimal, C188_optimal_upper, C188_program, C189_extremes, C189_sorted, C189_heap, C189_library, C189_both, C190_calls, C190_optimal, C190_program, C190_unordered, C191_sum, C191_count, C191_conditions, C191_integers, C191_order, C192_least, C192_enough, C193_count, C193_missed, C193_enough, C193_sizes, C194_needed, C194_shuffle, C194_moved, C194_reverse
* `propext, Quot.sound` (142): C05_ordered_same_loop, C09_counterexample, C09_isHeapFunc_partial, C12_remove_panic, C31_spec_is_set, C50_copy, C55_sorted, C59_counterexample, C59_panics, C60_order, C63_unique, C64_isSorted, C64_isDescSorted, C65_equal, C66_compare_lex, C66_compare_antisymm, C66_compare_trans, C66_compare_zero_iff_equal, C68_maxN, C68_minN, C68_minMaxN, C68_panic_iff, C68_first, C69_findIf, C69_find, C69_index, C70_allOf, C70_anyOf, C70_count, C70_countIf, C71_unique, C71_ranges, C71_exact, C73_counterexample, C74_averageAs_partial, C74_averageAs_exact, C75_size, C75_insert_remove, C77_subset, C77_superset, C77_disjoint, C78_keys, C78_forEach, C78_forEachIf, C78_any_order, C79_clear_partial, C79_survivors, C80_reads, C81_every_choice, C81_no_invention, C81_double_put, C82_operator_forms, C85_counterexample, C85_panics, C85_panics_unsigned, C88_not_finite, C104_hang_forever, C111_at_most, C122_counterexample, C123_counterexample, C123_counterexample_insert, C132_leak, C132_leak_stays, C134_same_runs, C135_total, C138_same, C139_stack, C139_vector, C139_queue, C139_total, C139_go, C140_plain, C151_settled, C151_forEach, C152_settled, C152_forEach, C158_forEach, C161_intersection, C161_difference, C161_union, C161_update, C161_intersection_cost, C161_difference_cost, C161_disjoint_cost, C161_subset_cost, C168_lookup, C168_compute, C168_equal, C168_compare, C168_sorted, C168_extremes, C168_cost, C169_searches, C169_remove, C170_dlist, C170_dlist_one, C170_queue, C170_slist, C170_iterators, C173_first, C173_last, C173_make, C173_push, C173_ascending, C173_rename, C173_field, C174_rest, C174_race, C175_unlawful, C177_many, C177_compare, C177_compare_zero, C177_compare_swap, C178_rename_search, C178_rename_queue, C178_rename_skiplist, C178_float_isSorted, C179_push, C179_isHeapFunc, C182_slices, C182_callbacks, C182_heaps, C182_push, C182_vectors, C182_vector_grow, C182_dlist, C182_slist, C182_skiplist, C182_skiplist_insert, C183_readers, C183_queue_alone, C183_stack_alone, C184_looking, C184_changing, C184_searching, C185_nan, C185_opposite, C185_infinity, C189_possible, C190_library, C191_library, C192_library
* `propext` (73): C11_pop_empty, C20_counterexample, C21_counterexample, C30_counterexample, C30_counterexample_hides, C32_counterexample, C42_counterexample, C43_counterexample, C45_counterexample, C47_counterexample, C53_counterexample, C64_neighbours, C64_nan, C67_orderedCompare, C67_orderedCompare_laws, C68_max, C68_min, C68_minMax, C68_equal, C72_counterexample, C73_word32, C74_counterexample, C74_wrong, C79_counterexample, C80_writes, C81_nonnil, C81_zero_size, C84_counterexample, C87_no_panic, C104_counterexample, C104_ghost, C104_hang, C111_ends, C117_counterexample, C134_unique_empty, C136_name, C141_counterexample, C143_same, C147_counterexample, C150_damage, C153_dlist, C153_slist, C153_skiplist, C153_goroutines, C153_remove_writes, C156_counterexample_int, C156_counterexample_float, C156_counterexample, C157_opposites, C157_nan, C175_changed, C176_nan, C177_two, C177_compare_nan, C177_hidden, C179_breaks, C180_lost, C181_lost_entry, C181_lost_count, C181_panic, C181_removed_twice, C183_queue_lost, C183_queue_count, C183_queue_push_panics, C183_queue_twice, C183_queue_try_panics, C183_queue_negative, C183_stack_lost, C183_stack_twice, C183_stack_dropped, C183_stack_try_panics, C183_stack_pop_panics, C185_order
* no axioms (8): C81_put_nil, C81_put, C86_formats, C153_vector, C153_stack_queue, C153_callbacks, C178_floats, C179_nan
<!-- axioms:end -->
