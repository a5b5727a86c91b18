import Verif.Spec.HeapMem
import Verif.Spec.SortBound
/-!
# Specification: sorting with the functions of `heap.go`

A client that sorts a slice with `MakeHeapFunc` and `PopHeapFunc`. Every `Pop` puts the element it returns behind the rest, so with the comparison turned round the slice ends up ascending.
-/
namespace Stl4go
variable {T τ : Type}

/-- The client: `h := a; MakeHeapFunc(a, greater); for range a { PopHeapFunc(&h, greater) }`, where `greater(x, y)` is `less(y, x)`. -/
def heapSortM (a : Sl) (less : LessM T τ) : GoM (HS T τ) Unit := do
  makeHeapFuncM a (fun x y => less y x)
  HS.assign a
  let _ ← popTimes (fun x y => less y x) a.len

/-- Sifting down as calls of `Less` and `Swap` with positions, for the turned comparison; `k` is what comes next. -/
def siftProg (n : Nat) (k : SortProg) : (fuel i : Nat) → SortProg
  | 0, _ => k
  | fuel + 1, i =>
    if 2 * i + 1 ≥ n then k
    else
      let next := fun j => SortProg.less i j fun b => if b then .swap i j (siftProg n k fuel j) else k
      if 2 * i + 1 + 1 < n then .less (2 * i + 1) (2 * i + 1 + 1) fun b => next (if b then 2 * i + 1 + 1 else 2 * i + 1) else next (2 * i + 1)

/-- Making a heap of the first `n`. -/
def heapifyProg (n : Nat) (k : SortProg) : Nat → SortProg
  | 0 => k
  | i + 1 => siftProg n (heapifyProg n k i) (n + 1) i

/-- Emptying it. -/
def drainProg : Nat → SortProg
  | 0 => .done
  | n + 1 => .swap 0 n (siftProg n (drainProg n) (n + 1) 0)

/-- Heap sort, as an algorithm in place of `sort.Sort`. -/
def heapSortProg (n : Nat) : SortProg := heapifyProg n (drainProg n) (n / 2)

/-- A result, but for the slice variable of the client, which holds `h` instead, and the value returned. -/
def Res.besides {α : Type} (h : Sl) : Res (HS T τ) α → Res (HS T τ) Unit
  | .ok _ s => .ok () { s with heap := h }
  | .panic s => .panic { s with heap := h }
  | .diverge => .diverge

end Stl4go
