import Verif.Model.Heap
/-!
# Instrumented heap functions

The functions of `/repo/heap.go` with a ghost counter `c` incremented at every call of `less` (or `<`).
`Proofs/HeapCost.lean` proves that erasing the counter gives back the functions of `Model/Heap.lean`.
-/
namespace Stl4go
variable {T : Type}

/-- `/repo/heap.go:169-178` (and `73-82`) with a comparison counter. -/
def heapUpFuncLoopC (less : T → T → Bool) : (fuel : Nat) → List T → (j c : Nat) → Outcome (List T × Nat)
  | 0, _, _, _ => .diverge
  | fuel + 1, heap, j, c => do
    let i := (j - 1) / 2
    if i = j then return (heap, c)
    else
      let x ← idx heap j
      let y ← idx heap i
      let c := c + 1
      if !(less x y) then return (heap, c)
      else
        let heap ← heapSwap heap i j
        heapUpFuncLoopC less fuel heap i c

/-- `/repo/heap.go:187-190` (and `91-94`) with a comparison counter. -/
def heapSmallerChildFuncC (less : T → T → Bool) (heap : List T) (j1 n c : Nat) : Outcome (Nat × Nat) :=
  let j2 := j1 + 1
  if j2 < n then do
    let x ← idx heap j2
    let y ← idx heap j1
    return (if less x y then j2 else j1, c + 1)
  else return (j1, c)

/-- `/repo/heap.go:182-196` (and `86-100`) with a comparison counter. -/
def heapDownFuncLoopC (less : T → T → Bool) :
    (fuel : Nat) → List T → (i n c : Nat) → Outcome (List T × Nat × Nat)
  | 0, _, _, _, _ => .diverge
  | fuel + 1, heap, i, n, c => do
    let j1 := 2 * i + 1
    if j1 ≥ n then return (heap, i, c)
    else
      let (j, c) ← heapSmallerChildFuncC less heap j1 n c
      let x ← idx heap j
      let y ← idx heap i
      let c := c + 1
      if !(less x y) then return (heap, i, c)
      else
        let heap ← heapSwap heap i j
        heapDownFuncLoopC less fuel heap j n c

/-- `heapDownFunc`, `/repo/heap.go:180-198`, with a comparison counter. -/
def heapDownFuncC (heap : List T) (i0 n : Nat) (less : T → T → Bool) (c : Nat) : Outcome (List T × Bool × Nat) := do
  let (heap, i, c) ← heapDownFuncLoopC less (n + 1) heap i0 n c
  return (heap, decide (i > i0), c)

/-- `/repo/heap.go:110-112` (and `11-13`) with a comparison counter. -/
def makeHeapFuncLoopC (less : T → T → Bool) (n : Nat) : Nat → List T → Nat → Outcome (List T × Nat)
  | 0, array, c => .ret (array, c)
  | i + 1, array, c => do
    let (array, _, c) ← heapDownFuncC array i n less c
    makeHeapFuncLoopC less n i array c

/-- `MakeHeapFunc`, `/repo/heap.go:107-113` (and `8-14`), with the number of comparisons. -/
def makeHeapFuncC (array : List T) (less : T → T → Bool) : Outcome (List T × Nat) :=
  makeHeapFuncLoopC less array.length (array.length / 2) array 0

/-- `PushHeapFunc`, `/repo/heap.go:136-139` (and `36-39`), with the number of comparisons. -/
def pushHeapFuncC (heap : List T) (v : T) (less : T → T → Bool) : Outcome (List T × Nat) :=
  let heap := heap ++ [v]
  heapUpFuncLoopC less (heap.length - 1 + 1) heap (heap.length - 1) 0

/-- `PopHeapFunc`, `/repo/heap.go:144-151` (and `44-51`), with the number of comparisons. -/
def popHeapFuncC (heap : List T) (less : T → T → Bool) : Outcome ((T × List T) × Nat) := do
  let n : Int := heap.length - 1
  let h ← heapSwapI heap 0 n
  let (h, _, c) ← heapDownFuncC h 0 n.toNat less 0
  let r ← idx h n.toNat
  return ((r, h.take n.toNat), c)

/-- `/repo/heap.go:159-164` (and `59-64`) with a comparison counter. -/
def removeHeapFuncSiftC (heap : List T) (i n : Int) (less : T → T → Bool) : Outcome (List T × Nat) :=
  if n ≠ i then do
    let h ← heapSwapI heap i n
    let (h, moved, c) ← heapDownFuncC h i.toNat n.toNat less 0
    if !moved then heapUpFuncLoopC less (i.toNat + 1) h i.toNat c else return (h, c)
  else return (heap, 0)

/-- `RemoveHeapFunc`, `/repo/heap.go:156-167` (and `56-67`), with the number of comparisons. -/
def removeHeapFuncC (heap : List T) (i : Int) (less : T → T → Bool) : Outcome ((T × List T) × Nat) := do
  let n : Int := heap.length - 1
  let (h, c) ← removeHeapFuncSiftC heap i n less
  if n < 0 then .panic
  else
    let r ← idx h n.toNat
    return ((r, h.take n.toNat), c)

end Stl4go
