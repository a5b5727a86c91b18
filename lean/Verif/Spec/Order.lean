import Verif.Model.Basic
/-! # Specification vocabulary for orders and sortedness (independent of the algorithms) -/
namespace Stl4go
variable {T : Type}

/-- Sorted by `less`: no later element is less than an earlier one. -/
def SortedBy (less : T → T → Bool) (a : List T) : Prop :=
  ∀ i j (hi : i < a.length) (hj : j < a.length), i < j → less a[j] a[i] = false

/-- `x` and `y` are equivalent: neither is less than the other. -/
def Equiv (less : T → T → Bool) (x y : T) : Prop := less x y = false ∧ less y x = false

/-- Number of elements equivalent to `v`, counted one by one. -/
def countEquiv (less : T → T → Bool) (v : T) : List T → Nat
  | [] => 0
  | x :: xs => (if less x v = false ∧ less v x = false then 1 else 0) + countEquiv less v xs

end Stl4go
