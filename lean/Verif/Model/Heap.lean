import Verif.Model.Basic
/-!
# Model of `/repo/heap.go`

A `*[]T` parameter is modelled by the list of visible elements going in and coming out. The element that
`PopMinHeap`/`RemoveMinHeap` leave behind in the backing array past the new length is not part of the result.
Index arithmetic is unbounded here; `heapDownFuncLoopW` is the same loop in wrapping 64-bit arithmetic (C13).
-/
namespace Stl4go
variable {T : Type}

/-- `heapSwap`, `/repo/heap.go:69-71`. Both operands are read before either is written. -/
def heapSwap (heap : List T) (i j : Nat) : Outcome (List T) := do
  let hj ← idx heap j
  let hi ← idx heap i
  let heap ← setIdx heap i hj
  setIdx heap j hi

/-- `heapSwap` (`/repo/heap.go:69-71`) called with `int` arguments that may be negative (`/repo/heap.go:47`, `/repo/heap.go:60`): a negative index panics. -/
def heapSwapI (heap : List T) (i j : Int) : Outcome (List T) :=
  if i < 0 ∨ j < 0 then .panic else heapSwap heap i.toNat j.toNat

/-! ## Operator forms -/

/-- Loop of `heapUp`, `/repo/heap.go:73-82`. Go's `(j-1)/2` truncates towards zero, so it is 0 for `j=0`,
which is also the value of the natural-number expression. -/
def heapUpLoop [GoOrd T] : (fuel : Nat) → List T → (j : Nat) → Outcome (List T)
  | 0, _, _ => .diverge
  | fuel + 1, heap, j => do
    let i := (j - 1) / 2
    if i = j then return heap
    else
      let x ← idx heap j
      let y ← idx heap i
      if !(GoOrd.lt x y) then return heap
      else
        let heap ← heapSwap heap i j
        heapUpLoop fuel heap i

/-- `heapUp`, `/repo/heap.go:73-82`. -/
def heapUp [GoOrd T] (heap : List T) (j : Nat) : Outcome (List T) := heapUpLoop (j + 1) heap j

/-- The choice of `j` inside the loop of `heapDown`, `/repo/heap.go:91-94`. -/
def heapSmallerChild [GoOrd T] (heap : List T) (j1 n : Nat) : Outcome Nat :=
  let j2 := j1 + 1
  if j2 < n then do
    let x ← idx heap j2
    let y ← idx heap j1
    return if GoOrd.lt x y then j2 else j1
  else return j1

/-- Loop of `heapDown`, `/repo/heap.go:86-100`; returns the heap and the final `i`. -/
def heapDownLoop [GoOrd T] : (fuel : Nat) → List T → (i n : Nat) → Outcome (List T × Nat)
  | 0, _, _, _ => .diverge
  | fuel + 1, heap, i, n => do
    let j1 := 2 * i + 1
    if j1 ≥ n then return (heap, i)
    else
      let j ← heapSmallerChild heap j1 n
      let x ← idx heap j
      let y ← idx heap i
      if !(GoOrd.lt x y) then return (heap, i)
      else
        let heap ← heapSwap heap i j
        heapDownLoop fuel heap j n

/-- `heapDown`, `/repo/heap.go:84-102`: the new heap and `i > i0`. -/
def heapDown [GoOrd T] (heap : List T) (i0 n : Nat) : Outcome (List T × Bool) := do
  let (heap, i) ← heapDownLoop (n + 1) heap i0 n
  return (heap, decide (i > i0))

/-- Loop of `MakeMinHeap`, `/repo/heap.go:11-13`; the first argument is `i+1`, counting down. -/
def makeMinHeapLoop [GoOrd T] (n : Nat) : Nat → List T → Outcome (List T)
  | 0, array => .ret array
  | i + 1, array => do
    let (array, _) ← heapDown array i n
    makeMinHeapLoop n i array

/-- `MakeMinHeap`, `/repo/heap.go:8-14`. -/
def makeMinHeap [GoOrd T] (array : List T) : Outcome (List T) :=
  makeMinHeapLoop array.length (array.length / 2) array

/-- Loop of `IsMinHeap`, `/repo/heap.go:21-29`; `rem` iterations left. -/
def isMinHeapLoop [GoOrd T] (array : List T) : (rem child parent : Nat) → Outcome Bool
  | 0, _, _ => .ret true
  | rem + 1, child, parent => do
    let p ← idx array parent
    let c ← idx array child
    if GoOrd.lt c p then return false
    else
      let parent := if child % 2 = 0 then parent + 1 else parent
      isMinHeapLoop array rem (child + 1) parent

/-- `IsMinHeap`, `/repo/heap.go:19-31`. -/
def isMinHeap [GoOrd T] (array : List T) : Outcome Bool :=
  isMinHeapLoop array (array.length - 1) 1 0

/-- `PushMinHeap`, `/repo/heap.go:36-39`. -/
def pushMinHeap [GoOrd T] (heap : List T) (v : T) : Outcome (List T) :=
  let heap := heap ++ [v]
  heapUp heap (heap.length - 1)

/-- `PopMinHeap`, `/repo/heap.go:44-51`: the returned element and the new heap. `n` is -1 on an empty heap. -/
def popMinHeap [GoOrd T] (heap : List T) : Outcome (T × List T) := do
  let n : Int := heap.length - 1
  let h ← heapSwapI heap 0 n
  let (h, _) ← heapDown h 0 n.toNat
  let r ← idx h n.toNat
  return (r, h.take n.toNat)

/-- The `if n != i` statement of `RemoveMinHeap`, `/repo/heap.go:59-64`. -/
def removeMinHeapSift [GoOrd T] (heap : List T) (i n : Int) : Outcome (List T) :=
  if n ≠ i then do
    let h ← heapSwapI heap i n
    let (h, moved) ← heapDown h i.toNat n.toNat
    if !moved then heapUp h i.toNat else return h
  else return heap

/-- `RemoveMinHeap`, `/repo/heap.go:56-67`. `i` is any Go int; the slicing `h[0:n]` panics when `n` is -1. -/
def removeMinHeap [GoOrd T] (heap : List T) (i : Int) : Outcome (T × List T) := do
  let n : Int := heap.length - 1
  let h ← removeMinHeapSift heap i n
  if n < 0 then .panic
  else
    let r ← idx h n.toNat
    return (r, h.take n.toNat)

/-! ## Comparison-function forms -/

/-- Loop of `heapUpFunc`, `/repo/heap.go:169-178`. -/
def heapUpFuncLoop (less : T → T → Bool) : (fuel : Nat) → List T → (j : Nat) → Outcome (List T)
  | 0, _, _ => .diverge
  | fuel + 1, heap, j => do
    let i := (j - 1) / 2
    if i = j then return heap
    else
      let x ← idx heap j
      let y ← idx heap i
      if !(less x y) then return heap
      else
        let heap ← heapSwap heap i j
        heapUpFuncLoop less fuel heap i

/-- `heapUpFunc`, `/repo/heap.go:169-178`. -/
def heapUpFunc (heap : List T) (j : Nat) (less : T → T → Bool) : Outcome (List T) :=
  heapUpFuncLoop less (j + 1) heap j

/-- The choice of `j` inside the loop of `heapDownFunc`, `/repo/heap.go:187-190`. -/
def heapSmallerChildFunc (less : T → T → Bool) (heap : List T) (j1 n : Nat) : Outcome Nat :=
  let j2 := j1 + 1
  if j2 < n then do
    let x ← idx heap j2
    let y ← idx heap j1
    return if less x y then j2 else j1
  else return j1

/-- Loop of `heapDownFunc`, `/repo/heap.go:182-196`. -/
def heapDownFuncLoop (less : T → T → Bool) : (fuel : Nat) → List T → (i n : Nat) → Outcome (List T × Nat)
  | 0, _, _, _ => .diverge
  | fuel + 1, heap, i, n => do
    let j1 := 2 * i + 1
    if j1 ≥ n then return (heap, i)
    else
      let j ← heapSmallerChildFunc less heap j1 n
      let x ← idx heap j
      let y ← idx heap i
      if !(less x y) then return (heap, i)
      else
        let heap ← heapSwap heap i j
        heapDownFuncLoop less fuel heap j n

/-- `heapDownFunc`, `/repo/heap.go:180-198`. -/
def heapDownFunc (heap : List T) (i0 n : Nat) (less : T → T → Bool) : Outcome (List T × Bool) := do
  let (heap, i) ← heapDownFuncLoop less (n + 1) heap i0 n
  return (heap, decide (i > i0))

/-- Loop of `MakeHeapFunc`, `/repo/heap.go:110-112`. -/
def makeHeapFuncLoop (less : T → T → Bool) (n : Nat) : Nat → List T → Outcome (List T)
  | 0, array => .ret array
  | i + 1, array => do
    let (array, _) ← heapDownFunc array i n less
    makeHeapFuncLoop less n i array

/-- `MakeHeapFunc`, `/repo/heap.go:107-113`. -/
def makeHeapFunc (array : List T) (less : T → T → Bool) : Outcome (List T) :=
  makeHeapFuncLoop less array.length (array.length / 2) array

/-- Loop of `IsHeapFunc`, `/repo/heap.go:120-129`. Note the test is `!less(parent, child)`. -/
def isHeapFuncLoop (array : List T) (less : T → T → Bool) : (rem child parent : Nat) → Outcome Bool
  | 0, _, _ => .ret true
  | rem + 1, child, parent => do
    let p ← idx array parent
    let c ← idx array child
    if !(less p c) then return false
    else
      let parent := if child % 2 = 0 then parent + 1 else parent
      isHeapFuncLoop array less rem (child + 1) parent

/-- `IsHeapFunc`, `/repo/heap.go:118-131`. -/
def isHeapFunc (array : List T) (less : T → T → Bool) : Outcome Bool :=
  isHeapFuncLoop array less (array.length - 1) 1 0

/-- `PushHeapFunc`, `/repo/heap.go:136-139`. -/
def pushHeapFunc (heap : List T) (v : T) (less : T → T → Bool) : Outcome (List T) :=
  let heap := heap ++ [v]
  heapUpFunc heap (heap.length - 1) less

/-- `PopHeapFunc`, `/repo/heap.go:144-151`. -/
def popHeapFunc (heap : List T) (less : T → T → Bool) : Outcome (T × List T) := do
  let n : Int := heap.length - 1
  let h ← heapSwapI heap 0 n
  let (h, _) ← heapDownFunc h 0 n.toNat less
  let r ← idx h n.toNat
  return (r, h.take n.toNat)

/-- The `if n != i` statement of `RemoveHeapFunc`, `/repo/heap.go:159-164`. -/
def removeHeapFuncSift (heap : List T) (i n : Int) (less : T → T → Bool) : Outcome (List T) :=
  if n ≠ i then do
    let h ← heapSwapI heap i n
    let (h, moved) ← heapDownFunc h i.toNat n.toNat less
    if !moved then heapUpFunc h i.toNat less else return h
  else return heap

/-- `RemoveHeapFunc`, `/repo/heap.go:156-167`. -/
def removeHeapFunc (heap : List T) (i : Int) (less : T → T → Bool) : Outcome (T × List T) := do
  let n : Int := heap.length - 1
  let h ← removeHeapFuncSift heap i n less
  if n < 0 then .panic
  else
    let r ← idx h n.toNat
    return (r, h.take n.toNat)

/-! ## 64-bit index arithmetic -/

/-- `/repo/heap.go:187-190` in wrapping arithmetic. -/
def heapSmallerChildFuncW (less : T → T → Bool) (heap : List T) (j1 n : Int) : Outcome Int :=
  let j2 := wrap64 (j1 + 1)
  if j2 < n then do
    if j2 < 0 ∨ j1 < 0 then .panic else
    let x ← idx heap j2.toNat
    let y ← idx heap j1.toNat
    return if less x y then j2 else j1
  else return j1

/-- The loop of `heapDownFunc` (`/repo/heap.go:182-196`; `heapDown`, `86-100`, is the same with `<`) with Go's wrapping
64-bit `int`: `2*i+1` may overflow to a negative number, which the code tests for. -/
def heapDownFuncLoopW (less : T → T → Bool) : (fuel : Nat) → List T → (i n : Int) → Outcome (List T × Int)
  | 0, _, _, _ => .diverge
  | fuel + 1, heap, i, n => do
    let j1 := wrap64 (wrap64 (2 * i) + 1)
    if j1 ≥ n ∨ j1 < 0 then return (heap, i)
    else
      let j ← heapSmallerChildFuncW less heap j1 n
      if j < 0 ∨ i < 0 then .panic else
      let x ← idx heap j.toNat
      let y ← idx heap i.toNat
      if !(less x y) then return (heap, i)
      else
        let heap ← heapSwapI heap i j
        heapDownFuncLoopW less fuel heap j n

end Stl4go
