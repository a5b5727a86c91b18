import Verif.Model.Basic
/-! # What a run adds to a measure of the state -/
namespace Stl4go
variable {σ α : Type}

/-- However the run from `s` ends, by returning or by a panic, the measure `μ` is at most `k` more than at the start. With a comparison function that adds one to a variable
and `μ` that variable, `k` bounds the calls that were made. -/
def RaisesBy (μ : σ → Nat) (k : Nat) (s : σ) : Res σ α → Prop
  | .ok _ s' => μ s' ≤ μ s + k
  | .panic s' => μ s' ≤ μ s + k
  | .diverge => True

end Stl4go
