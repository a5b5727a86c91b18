import Verif.Tests.Harness
import Verif.Model.Compare
import Verif.Model.DListQueue
import Verif.Model.Pool
import Verif.Model.PriorityQueue
import Verif.Model.SList
import Verif.Model.Sort
import Verif.Model.Strings
/-!
# The tests of lists, queues, `Pool` and `PriorityQueue`, run on the model

Not transcribed: the benchmark, and tests whose only content is that something compiles (`Test_Dlist_Interface`, `Test_Queue_Interface`,
`Test_SList_Interface`, `TestInterface`).
-/
namespace Stl4go.Tests

/-! ## `/repo/dlist_test.go` -/

/-- `DList[int]{}`, as in `/repo/dlist_test.go:12`. -/
def noDList : DS Int := { heap := [], l := {} }

/-- `expectEq(t, l.PopFront(), x)`, as in `/repo/dlist_test.go:70`. -/
def expectGets (pop : GoM (DS Int) Int) (x : Int) : GoM (DS Int) Unit := do let v ← pop; expectEq v x

/-- `expectEq(t, l.IsEmpty(), b)` and `expectEq(t, l.Len(), n)`, as in `/repo/dlist_test.go:13-14`. -/
def expectSize (b : Bool) (n : Int) : GoM (DS Int) Unit := do
  let e ← DL.isEmpty
  expectEq e b
  let k ← DL.len
  expectEq k n

/-- `Test_DList_New`, `/repo/dlist_test.go:11-15`. -/
example : passes (expectSize true 0) noDList = true := by decide +kernel

/-- `Test_DListOf`, `/repo/dlist_test.go:17-21`. -/
example : passes (do DL.dlistOf [1, 2, 3]; expectSize false 3) noDList = true := by decide +kernel

/-- `Test_DList_String`, `/repo/dlist_test.go:23-26`. -/
example : dlString "*int".toList = .ret (some "DList[int]".toList) := by decide +kernel

/-- `Test_DList_Iterate`, `/repo/dlist_test.go:28-37`; `*it.Pointer()` is `it.Value()`. -/
example : passes (do
    DL.dlistOf [1, 2, 3]
    let it ← DL.iterate
    let l ← it.collect 10
    expectEq l [1, 2, 3]) noDList = true := by decide +kernel

/-- `Test_DList_Iterate_Empty`, `/repo/dlist_test.go:39-46`. -/
example : passes (do
    let it ← DL.iterate
    let l ← it.collect 10
    expectEq l.length 0) noDList = true := by decide +kernel

/-- `Test_DList_FrontBack`, `/repo/dlist_test.go:48-52`. -/
example : passes (do DL.dlistOf [1, 2, 3]; expectGets DL.front 1; expectGets DL.back 3) noDList = true := by decide +kernel

/-- `Test_DList_PushFront`, `/repo/dlist_test.go:54-59`. -/
example : passes (do DL.pushFront 1; expectSize false 1) noDList = true := by decide +kernel

/-- `Test_DList_PushBack`, `/repo/dlist_test.go:61-66`. -/
example : passes (do DL.pushBack 1; expectSize false 1) noDList = true := by decide +kernel

/-- `Test_DList_PopFront`, `/repo/dlist_test.go:68-84`. -/
example : passes (do
    DL.dlistOf [1, 2, 3, 4]
    expectGets DL.popFront 1
    expectGets DL.popFront 2
    let r ← DL.tryPopFront
    expectEq r (3, true)
    let r ← DL.tryPopBack
    expectEq r (4, true)
    let r ← DL.tryPopFront
    expectFalse r.2
    expectPanic DL.popFront) noDList = true := by decide +kernel

/-- `Test_DList_PopBack`, `/repo/dlist_test.go:86-102`. -/
example : passes (do
    DL.dlistOf [1, 2, 3, 4]
    expectGets DL.popBack 4
    expectGets DL.popBack 3
    let r ← DL.tryPopBack
    expectEq r (2, true)
    let r ← DL.tryPopFront
    expectEq r (1, true)
    let r ← DL.tryPopBack
    expectFalse r.2
    expectPanic DL.popBack) noDList = true := by decide +kernel

/-- `Test_DList_PushBack_PopFront`, `/repo/dlist_test.go:104-112`. -/
example : passes (do DL.pushBack 1; DL.pushBack 2; expectGets DL.popFront 1; expectGets DL.popFront 2) noDList = true := by decide +kernel

/-- `Test_DList_PushBack_PopBack`, `/repo/dlist_test.go:114-119`. -/
example : passes (do DL.pushBack 1; expectGets DL.popBack 1) noDList = true := by decide +kernel

/-- `Test_DList_PushFront_PopBack`, `/repo/dlist_test.go:121-126`. -/
example : passes (do DL.pushFront 1; expectGets DL.popBack 1) noDList = true := by decide +kernel

/-- `Test_DList_PushFront_PopFront`, `/repo/dlist_test.go:128-133`. -/
example : passes (do DL.pushFront 1; expectGets DL.popFront 1) noDList = true := by decide +kernel

/-- `Test_DList_ForEach`, `/repo/dlist_test.go:135-144`. -/
example : passes (do
    DL.dlistOf [1, 2, 3]
    let b ← DL.forEach (fun (b : List Int) n => b ++ [n]) []
    expectEq b [1, 2, 3]) noDList = true := by decide +kernel

/-- `Test_DList_ForEachIf`, `/repo/dlist_test.go:146-154`. -/
example : passes (do
    DL.dlistOf [1, 2, 3]
    let c ← DL.forEachIf (fun (_ : Int) n => (n, n != 2)) 0
    expectEq c 2) noDList = true := by decide +kernel

/-- `Test_DList_ForEachMutable`, `/repo/dlist_test.go:156-170`. -/
example : passes (do
    DL.dlistOf [1, 2, 3]
    DL.forEachMutable (fun (_ : Unit) n => ((), -n)) ()
    let b ← DL.forEach (fun (b : List Int) n => b ++ [n]) []
    expectEq b [-1, -2, -3]) noDList = true := by decide +kernel

/-- `Test_DList_ForEachMutableIf`, `/repo/dlist_test.go:172-180`. -/
example : passes (do
    DL.dlistOf [1, 2, 3]
    let c ← DL.forEachMutableIf (fun (_ : Int) n => (n, n, n != 2)) 0
    expectEq c 2) noDList = true := by decide +kernel

/-- `Test_DList_ForEach_EmptyOK`, `/repo/dlist_test.go:182-188`. -/
example : passes (do
    DL.forEach (fun (_ : Unit) _ => ()) ()
    DL.forEachIf (fun (_ : Unit) _ => ((), true)) ()
    DL.forEachMutable (fun (_ : Unit) n => ((), n)) ()
    DL.forEachMutableIf (fun (_ : Unit) n => ((), n, true)) ()) noDList = true := by decide +kernel

/-! ## `/repo/dlist_queue_test.go` -/

/-- `Test_Queue_New`, `/repo/dlist_queue_test.go:12-16`. -/
example : passes (do
    DQ.new
    let b ← DQ.isEmpty
    expectTrue b
    let n ← DQ.len
    expectEq n 0) noDList = true := by decide +kernel

/-- `Test_Queue_Clear`, `/repo/dlist_queue_test.go:18-24`. -/
example : passes (do
    DQ.new
    DQ.pushBack 1
    DQ.clear
    let b ← DQ.isEmpty
    expectTrue b
    let n ← DQ.len
    expectEq n 0) noDList = true := by decide +kernel

/-- `Test_Queue_String`, `/repo/dlist_queue_test.go:26-29`. -/
example : dlqString "*int".toList = .ret (some "Queue[int]".toList) := by decide +kernel

/-- `Test_Queue_Front_Back`, `/repo/dlist_queue_test.go:31-39`. -/
example : passes (do
    DQ.new
    expectPanic DQ.front
    expectPanic DQ.back
    DQ.pushBack 1
    DQ.pushBack 2
    expectGets DQ.front 1
    expectGets DQ.back 2) noDList = true := by decide +kernel

/-- `Test_Queue_PushFront`, `/repo/dlist_queue_test.go:41-46`. -/
example : passes (do DQ.new; DQ.pushFront 1; expectSize false 1) noDList = true := by decide +kernel

/-- `Test_Queue_PushBack`, `/repo/dlist_queue_test.go:48-53`. -/
example : passes (do DQ.new; DQ.pushBack 1; expectSize false 1) noDList = true := by decide +kernel

/-- `Test_Queue_TryPopFront`, `/repo/dlist_queue_test.go:55-59`. -/
example : passes (do DQ.new; let r ← DQ.tryPopFront; expectFalse r.2) noDList = true := by decide +kernel

/-- `Test_Queue_TryPopBack`, `/repo/dlist_queue_test.go:60-64`. -/
example : passes (do DQ.new; let r ← DQ.tryPopBack; expectFalse r.2) noDList = true := by decide +kernel

/-- `Test_Queue_PushFront_PopFront`, `/repo/dlist_queue_test.go:66-72`. -/
example : passes (do DQ.new; DQ.pushFront 1; DQ.pushFront 2; expectGets DQ.popFront 2; expectGets DQ.popFront 1) noDList = true := by decide +kernel

/-- `Test_Queue_PushFront_PopBack`, `/repo/dlist_queue_test.go:74-78`. -/
example : passes (do DQ.new; DQ.pushFront 1; expectGets DQ.popBack 1) noDList = true := by decide +kernel

/-- `Test_Queue_PushBack_PopFront`, `/repo/dlist_queue_test.go:80-84`. -/
example : passes (do DQ.new; DQ.pushBack 1; expectGets DQ.popFront 1) noDList = true := by decide +kernel

/-- `Test_Queue_PushBack_PopBack`, `/repo/dlist_queue_test.go:86-90`. -/
example : passes (do DQ.new; DQ.pushBack 1; expectGets DQ.popBack 1) noDList = true := by decide +kernel

/-! ## `/repo/slist_test.go` -/

/-- `SList[int]{}`, as in `/repo/slist_test.go:13`. -/
def noSList : LS Int := { heap := [], l := {} }

/-- `expectEq(t, sl.Front(), x)`, as in `/repo/slist_test.go:29`. -/
def expectShows (get : GoM (LS Int) Int) (x : Int) : GoM (LS Int) Unit := do let v ← get; expectEq v x

/-- `Test_SList_Clean`, `/repo/slist_test.go:12-18`. -/
example : passes (do
    LL.pushFront 1
    LL.clear
    let b ← LL.isEmpty
    expectTrue b
    expectShows LL.len 0) noSList = true := by decide +kernel

/-- `Test_SList_Front`, `/repo/slist_test.go:20-37`. -/
example : passes (expectPanic LL.front) noSList = true ∧ passes (do
    LL.pushFront 1
    expectShows LL.front 1
    LL.pushBack 2
    expectShows LL.front 1
    LL.pushFront 3
    expectShows LL.front 3) noSList = true := by decide +kernel

/-- `Test_SList_Back`, `/repo/slist_test.go:39-56`. -/
example : passes (expectPanic LL.back) noSList = true ∧ passes (do
    LL.pushBack 1
    expectShows LL.back 1
    LL.pushFront 2
    expectShows LL.back 1
    LL.pushBack 3
    expectShows LL.back 3) noSList = true := by decide +kernel

/-- The loop `for i := 1; i < 10; i++` of `/repo/slist_test.go:60` and `/repo/slist_test.go:69`. -/
def oneToNine (body : Int → GoM (LS Int) Unit) : GoM (LS Int) Unit := [1, 2, 3, 4, 5, 6, 7, 8, 9].forM body

/-- `Test_SList_PushFront`, `/repo/slist_test.go:58-65`. -/
example : passes (oneToNine (fun i => do
    LL.pushFront i
    expectShows LL.front i
    expectShows LL.len i)) noSList = true := by decide +kernel

/-- `Test_SList_PushBack`, `/repo/slist_test.go:67-75`. -/
example : passes (oneToNine (fun i => do
    LL.pushBack i
    expectShows LL.back i
    expectShows LL.len i
    let b ← LL.isEmpty
    expectFalse b)) noSList = true := by decide +kernel

/-- `Test_SList_PopFront`, `/repo/slist_test.go:77-86`. -/
example : passes (do
    expectPanic LL.popFront
    LL.pushFront 1
    LL.pushFront 2
    expectShows LL.popFront 2
    expectShows LL.popFront 1
    expectPanic LL.popFront) noSList = true := by decide +kernel

/-- `Test_SList_Reverse`, `/repo/slist_test.go:88-92`. -/
example : passes (do
    LL.slistOf [1, 2, 3, 4]
    LL.reverse
    let l ← LL.values
    expectEq l [4, 3, 2, 1]) noSList = true := by decide +kernel

/-- A callback that counts and remembers whether each value was the count, as in `/repo/slist_test.go:97-100`. -/
def counted (t : Int × Bool) (v : Int) : Int × Bool := (t.1 + 1, t.2 && v == t.1 + 1)

/-- `Test_SList_ForEach`, `/repo/slist_test.go:94-102`. -/
example : passes (do
    LL.slistOf [1, 2, 3, 4]
    let t ← LL.forEach counted (0, true)
    expectTrue t.2
    expectShows LL.len t.1) noSList = true := by decide +kernel

/-- `Test_SList_ForEachIf`, `/repo/slist_test.go:104-113`. -/
example : passes (do
    LL.slistOf [1, 2, 3, 4]
    let t ← LL.forEachIf (fun t v => (counted t v, decide ((counted t v).1 < 3))) (0, true)
    expectEq t (3, true)) noSList = true := by decide +kernel

/-- `Test_SList_ForEachMutable`, `/repo/slist_test.go:115-127`. -/
example : passes (do
    LL.slistOf [1, 2, 3, 4]
    let t ← LL.forEachMutable (fun t v => (counted t v, -v)) (0, true)
    expectTrue t.2
    expectShows LL.len t.1
    let b ← LL.forEachMutable (fun b v => (b && decide (v < 0), v)) true
    expectTrue b) noSList = true := by decide +kernel

/-- `Test_SList_ForEachMutableIf`, `/repo/slist_test.go:129-138`. -/
example : passes (do
    LL.slistOf [1, 2, 3, 4]
    let t ← LL.forEachMutableIf (fun t v => (counted t v, v, decide ((counted t v).1 < 3))) (0, true)
    expectEq t (3, true)) noSList = true := by decide +kernel

/-- `Test_SList_Iterate`, `/repo/slist_test.go:140-152`. -/
example : passes (do
    LL.pushBack 1
    LL.pushBack 2
    LL.pushBack 3
    let it ← LL.iterate
    let l ← it.collect 10
    expectEq l [1, 2, 3]) noSList = true := by decide +kernel

/-! ## `/repo/pool_test.go` -/

/-- A program that has allocated nothing (`/repo/pool_test.go:6`), and a `sync.Pool` that drops nothing and takes the newest object. -/
def noObjects : PWorld := { next := 0, kept := [], calls := 0 }
/-- See `noObjects`. -/
def keepsAll : PoolRt := { drop := fun _ _ => false, pick := fun _ => 0 }

/-- `TestPool`, `/repo/pool_test.go:5-9`. -/
example : passes (do let x ← poolGet keepsAll (makePool newT); poolPut keepsAll x) noObjects = true := by decide +kernel

/-- `TestMakePoolWithNew`, `/repo/pool_test.go:11-15`. -/
example : passes (do let x ← poolGet keepsAll (makePoolWithNew (some newT)); poolPut keepsAll x) noObjects = true := by decide +kernel

/-- `TestMakePoolNil`, `/repo/pool_test.go:17-22`. -/
example : passes (do
    let x ← poolGet keepsAll (makePoolWithNew none)
    expectEq x none
    poolPut keepsAll x) noObjects = true := by decide +kernel

/-! ## `/repo/priority_queue_test.go` -/

/-- `TestNewPriorityQueue`, `/repo/priority_queue_test.go:12-16`. -/
example : (newPriorityQueue : PQ Int).isEmpty = true ∧ (newPriorityQueue : PQ Int).len = 0 := by decide +kernel

/-- `TestNewPriorityQueueOf`, `/repo/priority_queue_test.go:18-21`. -/
example : passes (do let pq ← call (newPriorityQueueOf [(5 : Int), 4, 3, 2, 1]); expectEq pq.len 5) () = true := by decide +kernel

/-- Pushing numbers, each time checking that the queue is not empty, as in `/repo/priority_queue_test.go:26-29`. -/
def pushEach : List Int → PQ Int → GoM Unit (PQ Int)
  | [], pq => pure pq
  | v :: l, pq => do
    let pq ← call (pq.push v)
    expectFalse pq.isEmpty
    pushEach l pq

/-- `TestPriorityQueue_PushPop` and `TestPriorityQueueFunc_PushPop`, `/repo/priority_queue_test.go:23-51`; `drain` is the loop of `/repo/priority_queue_test.go:31-33`. -/
example : passes (do
    let pq ← pushEach [5, 4, 3, 2, 1] (newPriorityQueueFunc lessF)
    let elements ← call (pq.drain 10)
    let b ← call (isSorted elements)
    expectTrue b
    expectEq elements.length 5) () = true := by decide +kernel

/-- `TestPriorityQueue_Clear`, `/repo/priority_queue_test.go:53-62`. -/
example : passes (do
    let pq := (newPriorityQueue : PQ Int).clear
    expectTrue pq.isEmpty
    expectEq pq.len 0
    let pq ← call (newPriorityQueueOf [(1 : Int), 2, 3])
    let pq := pq.clear
    expectTrue pq.isEmpty
    expectEq pq.len 0) () = true := by decide +kernel

/-- `ExamplePriorityQueue`, `/repo/priority_queue_test.go:66-81`: what it prints. -/
example : passes (do
    let h ← pushEach [3, 2, 1, 5] newPriorityQueue
    let m ← call h.top
    expectEq m 1
    let l ← call (h.drain 10)
    expectEq l [1, 2, 3, 5]) () = true := by decide +kernel

end Stl4go.Tests
