import Verif.Model.Basic
/-! # Specification of binary heaps -/
namespace Stl4go
variable {T : Type}

/-- Min-heap order: no element is less than its parent. -/
def IsHeap (less : T → T → Bool) (h : List T) : Prop :=
  ∀ i (hi : i < h.length), 0 < i → less h[i] (h[(i - 1) / 2]'(by omega)) = false

end Stl4go
