import Verif.Model.PriorityQueue
import Verif.Model.Slice
/-!
# Model of `/repo/heap.go` and `/repo/priority_queue.go` on memory

`Model/Heap.lean` keeps only the visible elements. Here a heap is a slice header over memory, so that the backing array, what it holds past
the length and who else can see it are part of the state, and a comparison function is Go code of its own: it may keep a state, panic
or never return. It is given two elements and has no access to the slice.
The state at a panic is what a caller that recovers finds.
Index arithmetic is unbounded (C13 is about the wrapping one); indices that are certainly not negative are natural numbers.
-/
namespace Stl4go
variable {T τ α : Type}

/-- State of a heap function: memory, the state of the comparison function, and the variable `*heap` (`/repo/heap.go:136`). -/
structure HS (T τ : Type) where
  mem : Mem T
  st : τ
  heap : Sl

/-- A comparison function, `LessFn` (`/repo/types.go:45`). -/
abbrev LessM (T τ : Type) := T → T → GoM τ Bool

/-- A statement that only touches memory (`/repo/heap.go:70`). -/
def HS.on (x : GoM (Mem T) α) : GoM (HS T τ) α := fun s =>
  match x s.mem with
  | .ok a m => .ok a { s with mem := m }
  | .panic m => .panic { s with mem := m }
  | .diverge => .diverge

/-- A call of the comparison function (`/repo/heap.go:172`). -/
def HS.call (x : GoM τ α) : GoM (HS T τ) α := fun s =>
  match x s.st with
  | .ok a t => .ok a { s with st := t }
  | .panic t => .panic { s with st := t }
  | .diverge => .diverge

/-- Read `*heap` (`/repo/heap.go:145`). -/
def HS.recv : GoM (HS T τ) Sl := fun s => .ok s.heap s

/-- Assign `*heap` (`/repo/heap.go:149`). -/
def HS.assign (h : Sl) : GoM (HS T τ) Unit := fun s => .ok () { s with heap := h }

/-- `heapSwap`, `/repo/heap.go:69-71`. Both operands are read before either is written. -/
def heapSwapM (heap : Sl) (i j : Int) : GoM (HS T τ) Unit := do
  let hj ← HS.on (heap.get j)
  let hi ← HS.on (heap.get i)
  HS.on (heap.put i hj)
  HS.on (heap.put j hi)

/-! ## Comparison-function forms -/

/-- Loop of `heapUpFunc`, `/repo/heap.go:170-177`. -/
def heapUpFuncLoopM (less : LessM T τ) : (fuel : Nat) → (heap : Sl) → (j : Nat) → GoM (HS T τ) Unit
  | 0, _, _ => GoM.diverge
  | fuel + 1, heap, j => do
    let i := (j - 1) / 2
    if i = j then pure ()
    else do
      let x ← HS.on (heap.get j)
      let y ← HS.on (heap.get i)
      let b ← HS.call (less x y)
      if !b then pure ()
      else do
        heapSwapM heap i j
        heapUpFuncLoopM less fuel heap i

/-- `heapUpFunc`, `/repo/heap.go:169-178`. -/
def heapUpFuncM (heap : Sl) (j : Nat) (less : LessM T τ) : GoM (HS T τ) Unit := heapUpFuncLoopM less (j + 1) heap j

/-- The choice of `j` inside the loop of `heapDownFunc`, `/repo/heap.go:187-190`. -/
def heapSmallerChildFuncM (less : LessM T τ) (heap : Sl) (j1 n : Nat) : GoM (HS T τ) Nat :=
  if j1 + 1 < n then do
    let x ← HS.on (heap.get (j1 + 1 : Nat))
    let y ← HS.on (heap.get j1)
    let b ← HS.call (less x y)
    pure (if b then j1 + 1 else j1)
  else pure j1

/-- Loop of `heapDownFunc`, `/repo/heap.go:182-196`; gives the final `i`. -/
def heapDownFuncLoopM (less : LessM T τ) : (fuel : Nat) → (heap : Sl) → (i n : Nat) → GoM (HS T τ) Nat
  | 0, _, _, _ => GoM.diverge
  | fuel + 1, heap, i, n => do
    let j1 := 2 * i + 1
    if j1 ≥ n then pure i
    else do
      let j ← heapSmallerChildFuncM less heap j1 n
      let x ← HS.on (heap.get j)
      let y ← HS.on (heap.get i)
      let b ← HS.call (less x y)
      if !b then pure i
      else do
        heapSwapM heap i j
        heapDownFuncLoopM less fuel heap j n

/-- `heapDownFunc`, `/repo/heap.go:180-198`. -/
def heapDownFuncM (heap : Sl) (i0 n : Nat) (less : LessM T τ) : GoM (HS T τ) Bool := do
  let i ← heapDownFuncLoopM less (n + 1) heap i0 n
  return decide (i > i0)

/-- Loop of `MakeHeapFunc`, `/repo/heap.go:110-112`; the first argument is `i+1`, counting down. -/
def makeHeapFuncLoopM (less : LessM T τ) (array : Sl) (n : Nat) : Nat → GoM (HS T τ) Unit
  | 0 => pure ()
  | i + 1 => do
    let _ ← heapDownFuncM array i n less
    makeHeapFuncLoopM less array n i

/-- `MakeHeapFunc`, `/repo/heap.go:107-113`. -/
def makeHeapFuncM (array : Sl) (less : LessM T τ) : GoM (HS T τ) Unit := makeHeapFuncLoopM less array array.len (array.len / 2)

/-- `PushHeapFunc`, `/repo/heap.go:136-139`. -/
def pushHeapFuncM [GoZero T] (grow : Nat → Nat → Nat) (v : T) (less : LessM T τ) : GoM (HS T τ) Unit := do
  let h ← HS.recv
  let h ← HS.on (h.append grow [v])
  HS.assign h
  let h ← HS.recv
  heapUpFuncM h (h.len - 1) less

/-- `PopHeapFunc`, `/repo/heap.go:144-151`. `n` is -1 on an empty heap, and then `heapSwap` panics. -/
def popHeapFuncM (less : LessM T τ) : GoM (HS T τ) T := do
  let h ← HS.recv
  let n : Int := h.len - 1
  heapSwapM h 0 n
  let _ ← heapDownFuncM h 0 n.toNat less
  let h' ← HS.on (h.slice 0 n)
  HS.assign h'
  HS.on (h.get n)

/-- The `if n != i` statement of `RemoveHeapFunc`, `/repo/heap.go:159-164`. -/
def removeHeapFuncSiftM (h : Sl) (i n : Int) (less : LessM T τ) : GoM (HS T τ) Unit :=
  if n ≠ i then do
    heapSwapM h i n
    let moved ← heapDownFuncM h i.toNat n.toNat less
    if !moved then heapUpFuncM h i.toNat less else pure ()
  else pure ()

/-- `RemoveHeapFunc`, `/repo/heap.go:156-167`. `i` is any Go int. -/
def removeHeapFuncM (i : Int) (less : LessM T τ) : GoM (HS T τ) T := do
  let h ← HS.recv
  let n : Int := h.len - 1
  removeHeapFuncSiftM h i n less
  let h' ← HS.on (h.slice 0 n)
  HS.assign h'
  HS.on (h.get n)

/-! ## Operator forms -/

/-- Loop of `heapUp`, `/repo/heap.go:74-81`. -/
def heapUpLoopM [GoOrd T] : (fuel : Nat) → (heap : Sl) → (j : Nat) → GoM (HS T τ) Unit
  | 0, _, _ => GoM.diverge
  | fuel + 1, heap, j => do
    let i := (j - 1) / 2
    if i = j then pure ()
    else do
      let x ← HS.on (heap.get j)
      let y ← HS.on (heap.get i)
      if !(GoOrd.lt x y) then pure ()
      else do
        heapSwapM heap i j
        heapUpLoopM fuel heap i

/-- `heapUp`, `/repo/heap.go:73-82`. -/
def heapUpM [GoOrd T] (heap : Sl) (j : Nat) : GoM (HS T τ) Unit := heapUpLoopM (j + 1) heap j

/-- The choice of `j` inside the loop of `heapDown`, `/repo/heap.go:91-94`. -/
def heapSmallerChildM [GoOrd T] (heap : Sl) (j1 n : Nat) : GoM (HS T τ) Nat :=
  if j1 + 1 < n then do
    let x ← HS.on (heap.get (j1 + 1 : Nat))
    let y ← HS.on (heap.get j1)
    pure (if GoOrd.lt x y then j1 + 1 else j1)
  else pure j1

/-- Loop of `heapDown`, `/repo/heap.go:86-100`. -/
def heapDownLoopM [GoOrd T] : (fuel : Nat) → (heap : Sl) → (i n : Nat) → GoM (HS T τ) Nat
  | 0, _, _, _ => GoM.diverge
  | fuel + 1, heap, i, n => do
    let j1 := 2 * i + 1
    if j1 ≥ n then pure i
    else do
      let j ← heapSmallerChildM heap j1 n
      let x ← HS.on (heap.get j)
      let y ← HS.on (heap.get i)
      if !(GoOrd.lt x y) then pure i
      else do
        heapSwapM heap i j
        heapDownLoopM fuel heap j n

/-- `heapDown`, `/repo/heap.go:84-102`. -/
def heapDownM [GoOrd T] (heap : Sl) (i0 n : Nat) : GoM (HS T τ) Bool := do
  let i ← heapDownLoopM (n + 1) heap i0 n
  return decide (i > i0)

/-- Loop of `MakeMinHeap`, `/repo/heap.go:11-13`. -/
def makeMinHeapLoopM [GoOrd T] (array : Sl) (n : Nat) : Nat → GoM (HS T τ) Unit
  | 0 => pure ()
  | i + 1 => do
    let _ ← heapDownM array i n
    makeMinHeapLoopM array n i

/-- `MakeMinHeap`, `/repo/heap.go:8-14`. -/
def makeMinHeapM [GoOrd T] (array : Sl) : GoM (HS T τ) Unit := makeMinHeapLoopM array array.len (array.len / 2)

/-- `PushMinHeap`, `/repo/heap.go:36-39`. -/
def pushMinHeapM [GoZero T] [GoOrd T] (grow : Nat → Nat → Nat) (v : T) : GoM (HS T τ) Unit := do
  let h ← HS.recv
  let h ← HS.on (h.append grow [v])
  HS.assign h
  let h ← HS.recv
  heapUpM h (h.len - 1)

/-- `PopMinHeap`, `/repo/heap.go:44-51`. -/
def popMinHeapM [GoOrd T] : GoM (HS T τ) T := do
  let h ← HS.recv
  let n : Int := h.len - 1
  heapSwapM h 0 n
  let _ ← heapDownM h 0 n.toNat
  let h' ← HS.on (h.slice 0 n)
  HS.assign h'
  HS.on (h.get n)

/-- The `if n != i` statement of `RemoveMinHeap`, `/repo/heap.go:59-64`. -/
def removeMinHeapSiftM [GoOrd T] (h : Sl) (i n : Int) : GoM (HS T τ) Unit :=
  if n ≠ i then do
    heapSwapM h i n
    let moved ← heapDownM h i.toNat n.toNat
    if !moved then heapUpM h i.toNat else pure ()
  else pure ()

/-- `RemoveMinHeap`, `/repo/heap.go:56-67`. -/
def removeMinHeapM [GoOrd T] (i : Int) : GoM (HS T τ) T := do
  let h ← HS.recv
  let n : Int := h.len - 1
  removeMinHeapSiftM h i n
  let h' ← HS.on (h.slice 0 n)
  HS.assign h'
  HS.on (h.get n)

/-! ## `PriorityQueue` -/

/-- Dynamic type of the field `impl`: `pqOrdered` (`/repo/priority_queue.go:76-78`), `pqFunc` with its `less` (`89-92`), or nil in the zero
value of `PriorityQueue`. -/
inductive PQImplM (T τ : Type) where
  | ordered (ord : GoOrd T)
  | func (less : LessM T τ)
  | nil

/-- `NewPriorityQueue`, `/repo/priority_queue.go:12-16`, and `NewPriorityQueueFunc`, `34-39`: the field `heap` is nil. -/
def PQM.new : GoM (HS T τ) Unit := HS.assign Sl.empty

/-- `NewPriorityQueueOn`, `/repo/priority_queue.go:20-26`. -/
def PQM.newOn [GoOrd T] (slice : Sl) : GoM (HS T τ) Unit := do
  makeMinHeapM slice
  HS.assign slice

/-- `NewPriorityQueueOf`, `/repo/priority_queue.go:29-31`: the arguments are in a slice made for the call. -/
def PQM.newOf [GoOrd T] (elements : List T) : GoM (HS T τ) Unit := do
  let s ← HS.on (Sl.lit elements)
  PQM.newOn s

/-- `Len`, `/repo/priority_queue.go:42-44`. -/
def PQM.len : GoM (HS T τ) Nat := do
  let h ← HS.recv
  return h.len

/-- `IsEmpty`, `/repo/priority_queue.go:47-49`. -/
def PQM.isEmpty : GoM (HS T τ) Bool := do
  let h ← HS.recv
  return h.len == 0

/-- `Clear`, `/repo/priority_queue.go:52-54`. -/
def PQM.clear : GoM (HS T τ) Unit := do
  let h ← HS.recv
  let h ← HS.on (h.slice 0 0)
  HS.assign h

/-- `Top`, `/repo/priority_queue.go:57-59`. -/
def PQM.top : GoM (HS T τ) T := do
  let h ← HS.recv
  HS.on (h.get 0)

/-- `Push`, `/repo/priority_queue.go:62-64`, dispatching to `80-82` or `94-96`; a nil `impl` is dereferenced, which panics. -/
def PQM.push [GoZero T] (grow : Nat → Nat → Nat) (impl : PQImplM T τ) (v : T) : GoM (HS T τ) Unit :=
  match impl with
  | .ordered _ => pushMinHeapM grow v
  | .func less => pushHeapFuncM grow v less
  | .nil => GoM.panic

/-- `Pop`, `/repo/priority_queue.go:67-69`, dispatching to `84-86` or `98-100`. -/
def PQM.pop (impl : PQImplM T τ) : GoM (HS T τ) T :=
  match impl with
  | .ordered _ => popMinHeapM
  | .func less => popHeapFuncM less
  | .nil => GoM.panic

end Stl4go
