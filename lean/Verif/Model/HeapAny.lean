import Verif.Model.HeapMem
/-!
# Model of `/repo/heap.go` with a comparison function that reaches the heap it is used on

`Model/HeapMem.lean` gives the comparison function a state of its own, but no access to the slice. A Go closure can have that access: it may
write elements, call `PushHeapFunc` or `PopHeapFunc` on the same variable, or assign the variable. Here a comparison function is any Go
code over the whole state: memory, its own variables, and `*heap`.

The code reads `*heap` only where the model does: the sift functions take the slice header by value (`/repo/heap.go:169`, `180`), so what the comparison function assigns to `*heap` does not
change the slice they work on.
-/
namespace Stl4go
variable {T τ : Type}

/-- A comparison function, `LessFn` (`/repo/types.go:45`), that can reach the memory and the variable `*heap`. -/
abbrev LessA (T τ : Type) := T → T → GoM (HS T τ) Bool

/-- Loop of `heapUpFunc`, `/repo/heap.go:170-177`. -/
def heapUpFuncLoopA (less : LessA T τ) : (fuel : Nat) → (heap : Sl) → (j : Nat) → GoM (HS T τ) Unit
  | 0, _, _ => GoM.diverge
  | fuel + 1, heap, j => do
    let i := (j - 1) / 2
    if i = j then pure ()
    else do
      let x ← HS.on (heap.get j)
      let y ← HS.on (heap.get i)
      let b ← less x y
      if !b then pure ()
      else do
        heapSwapM heap i j
        heapUpFuncLoopA less fuel heap i

/-- `heapUpFunc`, `/repo/heap.go:169-178`. -/
def heapUpFuncA (heap : Sl) (j : Nat) (less : LessA T τ) : GoM (HS T τ) Unit := heapUpFuncLoopA less (j + 1) heap j

/-- The choice of `j` inside the loop of `heapDownFunc`, `/repo/heap.go:187-190`. -/
def heapSmallerChildFuncA (less : LessA T τ) (heap : Sl) (j1 n : Nat) : GoM (HS T τ) Nat :=
  if j1 + 1 < n then do
    let x ← HS.on (heap.get (j1 + 1 : Nat))
    let y ← HS.on (heap.get j1)
    let b ← less x y
    pure (if b then j1 + 1 else j1)
  else pure j1

/-- Loop of `heapDownFunc`, `/repo/heap.go:182-196`; gives the final `i`. -/
def heapDownFuncLoopA (less : LessA T τ) : (fuel : Nat) → (heap : Sl) → (i n : Nat) → GoM (HS T τ) Nat
  | 0, _, _, _ => GoM.diverge
  | fuel + 1, heap, i, n => do
    let j1 := 2 * i + 1
    if j1 ≥ n then pure i
    else do
      let j ← heapSmallerChildFuncA less heap j1 n
      let x ← HS.on (heap.get j)
      let y ← HS.on (heap.get i)
      let b ← less x y
      if !b then pure i
      else do
        heapSwapM heap i j
        heapDownFuncLoopA less fuel heap j n

/-- `heapDownFunc`, `/repo/heap.go:180-198`. -/
def heapDownFuncA (heap : Sl) (i0 n : Nat) (less : LessA T τ) : GoM (HS T τ) Bool := do
  let i ← heapDownFuncLoopA less (n + 1) heap i0 n
  return decide (i > i0)

/-- Loop of `MakeHeapFunc`, `/repo/heap.go:110-112`; the first argument is `i+1`, counting down. -/
def makeHeapFuncLoopA (less : LessA T τ) (array : Sl) (n : Nat) : Nat → GoM (HS T τ) Unit
  | 0 => pure ()
  | i + 1 => do
    let _ ← heapDownFuncA array i n less
    makeHeapFuncLoopA less array n i

/-- `MakeHeapFunc`, `/repo/heap.go:107-113`. -/
def makeHeapFuncA (array : Sl) (less : LessA T τ) : GoM (HS T τ) Unit := makeHeapFuncLoopA less array array.len (array.len / 2)

/-- Loop of `IsHeapFunc`, `/repo/heap.go:120-129`; `rem` is the number of rounds left. -/
def isHeapFuncLoopA (array : Sl) (less : LessA T τ) : (rem child parent : Nat) → GoM (HS T τ) Bool
  | 0, _, _ => pure true
  | rem + 1, child, parent => do
    let p ← HS.on (array.get parent)
    let c ← HS.on (array.get child)
    let b ← less p c
    if !b then pure false
    else isHeapFuncLoopA array less rem (child + 1) (if child % 2 = 0 then parent + 1 else parent)

/-- `IsHeapFunc`, `/repo/heap.go:118-131`. -/
def isHeapFuncA (array : Sl) (less : LessA T τ) : GoM (HS T τ) Bool := isHeapFuncLoopA array less (array.len - 1) 1 0

/-- `PushHeapFunc`, `/repo/heap.go:136-139`. -/
def pushHeapFuncA [GoZero T] (grow : Nat → Nat → Nat) (v : T) (less : LessA T τ) : GoM (HS T τ) Unit := do
  let h ← HS.recv
  let h ← HS.on (h.append grow [v])
  HS.assign h
  let h ← HS.recv
  heapUpFuncA h (h.len - 1) less

/-- `PopHeapFunc`, `/repo/heap.go:144-151`. `n` is -1 on an empty heap, and then `heapSwap` panics. -/
def popHeapFuncA (less : LessA T τ) : GoM (HS T τ) T := do
  let h ← HS.recv
  let n : Int := h.len - 1
  heapSwapM h 0 n
  let _ ← heapDownFuncA h 0 n.toNat less
  let h' ← HS.on (h.slice 0 n)
  HS.assign h'
  HS.on (h.get n)

/-- The `if n != i` statement of `RemoveHeapFunc`, `/repo/heap.go:159-164`. -/
def removeHeapFuncSiftA (h : Sl) (i n : Int) (less : LessA T τ) : GoM (HS T τ) Unit :=
  if n ≠ i then do
    heapSwapM h i n
    let moved ← heapDownFuncA h i.toNat n.toNat less
    if !moved then heapUpFuncA h i.toNat less else pure ()
  else pure ()

/-- `RemoveHeapFunc`, `/repo/heap.go:156-167`. `i` is any Go int. -/
def removeHeapFuncA (i : Int) (less : LessA T τ) : GoM (HS T τ) T := do
  let h ← HS.recv
  let n : Int := h.len - 1
  removeHeapFuncSiftA h i n less
  let h' ← HS.on (h.slice 0 n)
  HS.assign h'
  HS.on (h.get n)

end Stl4go
