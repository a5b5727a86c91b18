import Verif.Model.Basic
/-! # Model of the counting functions of `/repo/compute.go` (the arithmetic ones are in `Model/Numeric.lean`) -/
namespace Stl4go
variable {T : Type}

/-- Loop of `Count`, `/repo/compute.go:61-65`. -/
def countLoop [GoEq T] (x : T) : List T → Nat → Nat
  | [], c => c
  | v :: a, c => if GoEq.eq v x then countLoop x a (c + 1) else countLoop x a c

/-- `Count`, `/repo/compute.go:59-67`. -/
def count [GoEq T] (a : List T) (x : T) : Nat := countLoop x a 0

/-- Loop of `CountIf`, `/repo/compute.go:74-78`. -/
def countIfLoop (pred : T → Bool) : List T → Nat → Nat
  | [], c => c
  | v :: a, c => if pred v then countIfLoop pred a (c + 1) else countIfLoop pred a c

/-- `CountIf`, `/repo/compute.go:72-80`. -/
def countIf (a : List T) (pred : T → Bool) : Nat := countIfLoop pred a 0

end Stl4go
