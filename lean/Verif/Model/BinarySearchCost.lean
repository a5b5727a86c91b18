import Verif.Model.BinarySearch
/-!
# Instrumented binary search

The loops of `/repo/binary_search.go:32-48` and `78-94` (and their operator forms) with a ghost counter `n` that is
incremented once at every call of the comparison. `Proofs/BinarySearchCost.lean` proves that erasing the counter gives
back exactly `lowerBoundFunc` / `upperBoundFunc`.
-/
namespace Stl4go
variable {T : Type}

/-- `/repo/binary_search.go:35-46` with a comparison counter. -/
def lowerBoundFuncLoopC (a : List T) (value : T) (less : T → T → Bool) :
    (fuel loc count n : Nat) → Outcome (Nat × Nat)
  | 0, _, _, _ => .diverge
  | fuel + 1, loc, count, n =>
    if count > 0 then do
      let step := count / 2
      let i := loc + step
      let x ← idx a i
      let n := n + 1
      if less x value then
        lowerBoundFuncLoopC a value less fuel (i + 1) (count - (step + 1)) n
      else
        lowerBoundFuncLoopC a value less fuel loc step n
    else .ret (loc, n)

/-- `/repo/binary_search.go:81-92` with a comparison counter. -/
def upperBoundFuncLoopC (a : List T) (value : T) (less : T → T → Bool) :
    (fuel loc count n : Nat) → Outcome (Nat × Nat)
  | 0, _, _, _ => .diverge
  | fuel + 1, loc, count, n =>
    if count > 0 then do
      let step := count / 2
      let i := loc + step
      let x ← idx a i
      let n := n + 1
      if !(less value x) then
        upperBoundFuncLoopC a value less fuel (i + 1) (count - (step + 1)) n
      else
        upperBoundFuncLoopC a value less fuel loc step n
    else .ret (loc, n)

/-- `LowerBoundFunc`, `/repo/binary_search.go:32-48`, with its number of comparisons. -/
def lowerBoundFuncC (a : List T) (value : T) (less : T → T → Bool) : Outcome (Nat × Nat) :=
  lowerBoundFuncLoopC a value less (a.length + 1) 0 a.length 0
/-- `UpperBoundFunc`, `/repo/binary_search.go:78-94`, with its number of comparisons. -/
def upperBoundFuncC (a : List T) (value : T) (less : T → T → Bool) : Outcome (Nat × Nat) :=
  upperBoundFuncLoopC a value less (a.length + 1) 0 a.length 0

end Stl4go
