import Verif.Spec.Numeric
/-! # The values of a float type, with the infinities and NaN -/
namespace Stl4go

/-- `x` is a value of the float type `g`. -/
def GoFloat.Value (g : GoFloat) : Flt → Prop
  | .fin z => g.Rep z
  | .inf _ => True
  | .nan => True

/-- `x` is finite. -/
def Flt.Finite : Flt → Prop
  | .fin _ => True
  | .inf _ => False
  | .nan => False

end Stl4go
