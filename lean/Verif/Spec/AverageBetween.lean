import Verif.Spec.Numeric
/-! # Specification: an average lies between the smallest and the largest element -/
namespace Stl4go

/-- Some number of `a` is not above `r` and some is not below. -/
def Between (a : List Int) (r : Int) : Prop := (∃ x ∈ a, x ≤ r) ∧ ∃ y ∈ a, r ≤ y

instance (a : List Int) (r : Int) : Decidable (Between a r) := by unfold Between; infer_instance

end Stl4go
