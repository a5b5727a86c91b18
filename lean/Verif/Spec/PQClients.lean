import Verif.Model.PriorityQueue
/-!
# Programs that use heaps and priority queues

Not in the repository: what callers write with `/repo/heap.go` and `/repo/priority_queue.go`.
-/
namespace Stl4go
variable {T : Type}

/-- Bring the heap into order after element `i` was changed: take it out, `RemoveHeapFunc` (`/repo/heap.go:156-167`), and put it back,
`PushHeapFunc` (`/repo/heap.go:136-139`). -/
def heapFix (h : List T) (i : Int) (less : T → T → Bool) : Outcome (List T) := do
  let (x, h) ← removeHeapFunc h i less
  pushHeapFunc h x less

/-- The same with `RemoveMinHeap` (`/repo/heap.go:56-67`) and `PushMinHeap` (`/repo/heap.go:36-39`). -/
def minHeapFix [GoOrd T] (h : List T) (i : Int) : Outcome (List T) := do
  let (x, h) ← removeMinHeap h i
  pushMinHeap h x

/-- Keep the `k` greatest of a stream: `Push` each (`/repo/priority_queue.go:62-64`), and `Pop` (`67-69`) when `Len` (`42-44`) exceeds `k`. -/
def keepGreatest (k : Nat) : PQ T → List T → Outcome (PQ T)
  | pq, [] => .ret pq
  | pq, x :: xs => do
    let pq ← pq.push x
    if pq.len > k then do
      let (_, pq) ← pq.pop
      keepGreatest k pq xs
    else keepGreatest k pq xs

/-- Put the lists that are not empty into the queue, as first element and rest (`Push`, `/repo/priority_queue.go:62-64`). -/
def mergeStart : PQ (T × List T) → List (List T) → Outcome (PQ (T × List T))
  | pq, [] => .ret pq
  | pq, [] :: ls => mergeStart pq ls
  | pq, (x :: xs) :: ls => do
    let pq ← pq.push (x, xs)
    mergeStart pq ls

/-- Put the rest of a list back (`Push`, `/repo/priority_queue.go:62-64`), if there is any. -/
def mergeBack (pq : PQ (T × List T)) : List T → Outcome (PQ (T × List T))
  | [] => .ret pq
  | y :: ys => pq.push (y, ys)

/-- `Pop` the list with the least first element (`/repo/priority_queue.go:67-69`), give that out and `Push` the rest, until `IsEmpty` (`47-49`). -/
def mergeLoop : (fuel : Nat) → PQ (T × List T) → Outcome (List T)
  | 0, _ => .diverge
  | fuel + 1, pq =>
    if pq.isEmpty then .ret []
    else do
      let ((x, xs), pq) ← pq.pop
      let pq ← mergeBack pq xs
      let out ← mergeLoop fuel pq
      return x :: out

/-- Merge many sorted lists with `NewPriorityQueueFunc` (`/repo/priority_queue.go:34-39`) comparing first elements. -/
def mergeAll (less : T → T → Bool) (ls : List (List T)) : Outcome (List T) := do
  let pq ← mergeStart (newPriorityQueueFunc (fun a b => less a.1 b.1)) ls
  mergeLoop (ls.flatten.length + 1) pq

/-- The lower half of a stream with its greatest on top, and the upper half with its least on top; the step for one more element uses
`Push`, `Pop` and `Len` (`/repo/priority_queue.go:42-69`). -/
def medianStep (lo hi : PQ T) (x : T) : Outcome (PQ T × PQ T) := do
  let lo ← lo.push x
  let (y, lo) ← lo.pop
  let hi ← hi.push y
  if hi.len > lo.len then do
    let (z, hi) ← hi.pop
    let lo ← lo.push z
    return (lo, hi)
  else return (lo, hi)

/-- All steps, from two new queues (`/repo/priority_queue.go:34-39`). -/
def medianRun : PQ T → PQ T → List T → Outcome (PQ T × PQ T)
  | lo, hi, [] => .ret (lo, hi)
  | lo, hi, x :: xs => do
    let (lo, hi) ← medianStep lo hi x
    medianRun lo hi xs

/-- The lower median: the greatest of the lower half, `Top` (`/repo/priority_queue.go:57-59`). -/
def medianOf (less : T → T → Bool) (xs : List T) : Outcome T := do
  let (lo, _) ← medianRun (newPriorityQueueFunc (fun a b => less b a)) (newPriorityQueueFunc less) xs
  lo.top

end Stl4go
