import Verif.Model.Basic
/-! # Model of `/repo/binary_search.go` -/
namespace Stl4go
variable {T : Type}

/-- Loop of `LowerBound`, `/repo/binary_search.go:11-22`. `fuel` bounds the number of iterations. -/
def lowerBoundLoop [GoOrd T] (a : List T) (value : T) : (fuel loc count : Nat) → Outcome Nat
  | 0, _, _ => .diverge
  | fuel + 1, loc, count =>
    if count > 0 then do
      let i := loc
      let step := count / 2
      let i := i + step
      let x ← idx a i
      if GoOrd.lt x value then
        let i := i + 1
        let loc := i
        let count := count - (step + 1)
        lowerBoundLoop a value fuel loc count
      else
        let count := step
        lowerBoundLoop a value fuel loc count
    else .ret loc

/-- `LowerBound`, `/repo/binary_search.go:8-24`. -/
def lowerBound [GoOrd T] (a : List T) (value : T) : Outcome Nat :=
  lowerBoundLoop a value (a.length + 1) 0 a.length

/-- Loop of `LowerBoundFunc`, `/repo/binary_search.go:35-46`. -/
def lowerBoundFuncLoop (a : List T) (value : T) (less : T → T → Bool) : (fuel loc count : Nat) → Outcome Nat
  | 0, _, _ => .diverge
  | fuel + 1, loc, count =>
    if count > 0 then do
      let i := loc
      let step := count / 2
      let i := i + step
      let x ← idx a i
      if less x value then
        let i := i + 1
        let loc := i
        let count := count - (step + 1)
        lowerBoundFuncLoop a value less fuel loc count
      else
        let count := step
        lowerBoundFuncLoop a value less fuel loc count
    else .ret loc

/-- `LowerBoundFunc`, `/repo/binary_search.go:32-48`. -/
def lowerBoundFunc (a : List T) (value : T) (less : T → T → Bool) : Outcome Nat :=
  lowerBoundFuncLoop a value less (a.length + 1) 0 a.length

/-- Loop of `UpperBound`, `/repo/binary_search.go:57-68`. -/
def upperBoundLoop [GoOrd T] (a : List T) (value : T) : (fuel loc count : Nat) → Outcome Nat
  | 0, _, _ => .diverge
  | fuel + 1, loc, count =>
    if count > 0 then do
      let i := loc
      let step := count / 2
      let i := i + step
      let x ← idx a i
      if !(GoOrd.lt value x) then
        let i := i + 1
        let loc := i
        let count := count - (step + 1)
        upperBoundLoop a value fuel loc count
      else
        let count := step
        upperBoundLoop a value fuel loc count
    else .ret loc

/-- `UpperBound`, `/repo/binary_search.go:54-70`. -/
def upperBound [GoOrd T] (a : List T) (value : T) : Outcome Nat :=
  upperBoundLoop a value (a.length + 1) 0 a.length

/-- Loop of `UpperBoundFunc`, `/repo/binary_search.go:81-92`. -/
def upperBoundFuncLoop (a : List T) (value : T) (less : T → T → Bool) : (fuel loc count : Nat) → Outcome Nat
  | 0, _, _ => .diverge
  | fuel + 1, loc, count =>
    if count > 0 then do
      let i := loc
      let step := count / 2
      let i := i + step
      let x ← idx a i
      if !(less value x) then
        let i := i + 1
        let loc := i
        let count := count - (step + 1)
        upperBoundFuncLoop a value less fuel loc count
      else
        let count := step
        upperBoundFuncLoop a value less fuel loc count
    else .ret loc

/-- `UpperBoundFunc`, `/repo/binary_search.go:78-94`. -/
def upperBoundFunc (a : List T) (value : T) (less : T → T → Bool) : Outcome Nat :=
  upperBoundFuncLoop a value less (a.length + 1) 0 a.length

/-- `BinarySearch`, `/repo/binary_search.go:100-106`. The index is `Int` because of the `-1`. -/
def binarySearch [GoOrd T] (a : List T) (value : T) : Outcome (Int × Bool) := do
  let loc ← lowerBound a value
  if loc < a.length then
    let x ← idx a loc
    if GoEq.eq x value then
      return ((loc : Int), true)
    else
      return (-1, false)
  else
    return (-1, false)

/-- `BinarySearchFunc`, `/repo/binary_search.go:115-121`. -/
def binarySearchFunc (a : List T) (value : T) (less : T → T → Bool) : Outcome (Int × Bool) := do
  let loc ← lowerBoundFunc a value less
  if loc < a.length then
    let x ← idx a loc
    if !(less value x) then
      return ((loc : Int), true)
    else
      return (-1, false)
  else
    return (-1, false)

end Stl4go
