import Mathlib.Algebra.Order.Field.Rat
import Mathlib.Algebra.Order.Ring.Abs
import Verif.Spec.Numeric
/-!
# Specification: how far a rounded sum may be off

All numbers of units (2^-1074) are taken as fractions here.
-/
namespace Stl4go

/-- The unit roundoff of float64, `2^-53`: half the distance from 1 to the next float64. -/
def roundoff : ℚ := 1 / 2 ^ 53

/-- The sum of the absolute values. -/
def absSum (zs : List Int) : ℚ := (zs.map (fun z : Int => |(z : ℚ)|)).sum

/-- `r` differs from the sum of `zs` by at most `(1 + u)^k - 1` times the sum of the absolute values: what `k` roundings in a row do at most. -/
def OffBy (k : Nat) (zs : List Int) (r : Int) : Prop := |(r : ℚ) - (zs.sum : Int)| ≤ ((1 + roundoff) ^ k - 1) * absSum zs

end Stl4go
