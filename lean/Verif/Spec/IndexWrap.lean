import Verif.Model.Basic
/-! # Results as Go numbers -/
namespace Stl4go

/-- The outcome with the number as an `Int`. -/
def Outcome.toInt : Outcome Nat → Outcome Int
  | .ret n => .ret (n : Int)
  | .panic => .panic
  | .diverge => .diverge

end Stl4go
