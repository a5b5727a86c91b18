import Verif.Model.Heap
/-!
# Model of `/repo/priority_queue.go`

A queue is its heap slice and the dynamic type of `impl`. The constructors set `impl` to a struct that embeds the queue
itself, so that `impl.Push` works on the same `heap` field; that self-reference is represented by passing the queue.
The zero value `PriorityQueue{}` (nil `impl`) and the memory behind the slice are in `Model/HeapMem.lean`.
-/
namespace Stl4go
variable {T : Type}

/-- Dynamic type of the field `impl`: `pqOrdered` (`/repo/priority_queue.go:76-78`) with the operators of `T`, or `pqFunc`
(`89-92`) with its `less`. -/
inductive PQImpl (T : Type) where
  | ordered (ord : GoOrd T)
  | func (less : T → T → Bool)

/-- `PriorityQueue`, `/repo/priority_queue.go:6-9`. -/
structure PQ (T : Type) where
  heap : List T
  impl : PQImpl T

/-- `NewPriorityQueue`, `/repo/priority_queue.go:12-16`. -/
def newPriorityQueue [ord : GoOrd T] : PQ T := { heap := [], impl := .ordered ord }

/-- `NewPriorityQueueOn`, `/repo/priority_queue.go:20-26`. -/
def newPriorityQueueOn [ord : GoOrd T] (slice : List T) : Outcome (PQ T) := do
  let slice ← makeMinHeap slice
  return { heap := slice, impl := .ordered ord }

/-- `NewPriorityQueueOf`, `/repo/priority_queue.go:29-31`. -/
def newPriorityQueueOf [GoOrd T] (elements : List T) : Outcome (PQ T) := newPriorityQueueOn elements

/-- `NewPriorityQueueFunc`, `/repo/priority_queue.go:34-39`. -/
def newPriorityQueueFunc (less : T → T → Bool) : PQ T := { heap := [], impl := .func less }

/-- `Len`, `/repo/priority_queue.go:42-44`. -/
def PQ.len (pq : PQ T) : Nat := pq.heap.length

/-- `IsEmpty`, `/repo/priority_queue.go:47-49`. -/
def PQ.isEmpty (pq : PQ T) : Bool := pq.heap.length == 0

/-- `Clear`, `/repo/priority_queue.go:52-54`: `pq.heap[0:0]`. -/
def PQ.clear (pq : PQ T) : PQ T := { pq with heap := pq.heap.take 0 }

/-- `Top`, `/repo/priority_queue.go:57-59`. -/
def PQ.top (pq : PQ T) : Outcome T := idx pq.heap 0

/-- `Push`, `/repo/priority_queue.go:62-64`, dispatching to `80-82` or `94-96`. -/
def PQ.push (pq : PQ T) (v : T) : Outcome (PQ T) := do
  let heap ← match pq.impl with
    | .ordered _ => pushMinHeap pq.heap v
    | .func less => pushHeapFunc pq.heap v less
  return { pq with heap := heap }

/-- `Pop`, `/repo/priority_queue.go:67-69`, dispatching to `84-86` or `98-100`. -/
def PQ.pop (pq : PQ T) : Outcome (T × PQ T) := do
  let (r, heap) ← match pq.impl with
    | .ordered _ => popMinHeap pq.heap
    | .func less => popHeapFunc pq.heap less
  return (r, { pq with heap := heap })

/-- A client that pops until `IsEmpty` (`/repo/priority_queue.go:47-49`) and collects what it gets (not in the repository; used to state C16). -/
def PQ.drain : (fuel : Nat) → PQ T → Outcome (List T)
  | 0, _ => .diverge
  | fuel + 1, pq =>
    if pq.isEmpty then .ret []
    else do
      let (x, pq) ← pq.pop
      let xs ← PQ.drain fuel pq
      return x :: xs

end Stl4go
