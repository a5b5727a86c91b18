import Verif.Model.Basic
/-! # Model of `/repo/compare.go` and `/repo/functor.go` -/
namespace Stl4go
variable {T : Type}

/-- Loop of `Equal`, `/repo/compare.go:11-16`; `rem` iterations left, `i` the range index. -/
def equalLoop [GoEq T] (a b : List T) : (rem i : Nat) → Outcome Bool
  | 0, _ => .ret true
  | rem + 1, i => do
    let x ← idx a i
    let y ← idx b i
    if !(GoEq.eq x y) then return false
    else equalLoop a b rem (i + 1)

/-- `Equal`, `/repo/compare.go:7-17`. -/
def equal [GoEq T] (a b : List T) : Outcome Bool :=
  if a.length ≠ b.length then .ret false
  else equalLoop a b a.length 0

/-- Loop and tail of `Compare`, `/repo/compare.go:28-43`; the first list is the rest of `a` from range index `i`. -/
def compareLoop [GoOrd T] (la : Nat) (b : List T) : List T → Nat → Outcome Int
  | [], _ => .ret (if la < b.length then -1 else 0)
  | v1 :: a, i =>
    if i ≥ b.length then .ret 1
    else do
      let v2 ← idx b i
      if GoOrd.lt v1 v2 then return -1
      else if GoOrd.lt v2 v1 then return 1
      else compareLoop la b a (i + 1)

/-- `Compare`, `/repo/compare.go:26-44`. -/
def compare [GoOrd T] (a b : List T) : Outcome Int := compareLoop a.length b a 0

/-- `Less`, `/repo/functor.go:4-6`. -/
def lessF [GoOrd T] (a b : T) : Bool := GoOrd.lt a b
/-- `Greater`, `/repo/functor.go:9-11`. -/
def greaterF [GoOrd T] (a b : T) : Bool := GoOrd.lt b a
/-- `OrderedCompare`, `/repo/functor.go:14-22`. -/
def orderedCompare [GoOrd T] (a b : T) : Int :=
  if GoOrd.lt a b then -1
  else if GoOrd.lt b a then 1
  else 0

end Stl4go
