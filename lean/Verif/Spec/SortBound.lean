import Verif.Spec.SortAny
import Verif.Model.NilFunc
/-! # Specification: how often a sort has to compare -/
namespace Stl4go
variable {T : Type}

/-- A comparison function of the client that answers like `l` and counts its calls in a variable. -/
def countedLess (l : T → T → Bool) : LessA T Nat := fun x y s => .ok (l x y) { s with st := s.st + 1 }

end Stl4go
