import Verif.Spec.AskBound
/-! # Specification: finding the least and the greatest at once -/
namespace Stl4go

/-- The program finds the least and the greatest of any `n` different integers (their positions). -/
def AskProg.FindsBoth (p : AskProg (Nat × Nat)) (n : Nat) : Prop :=
  ∀ xs : List Int, xs.length = n → xs.Nodup → ∃ lo hi E x y, p.run intLess xs = some ((lo, hi), E) ∧ xs[lo]? = some x ∧ xs[hi]? = some y ∧ ∀ z ∈ xs, x ≤ z ∧ z ≤ y

/-- The elements in pairs, the first of them on its own if `n` is odd. -/
def minMaxPairs (n : Nat) : AskProg (Nat × Nat) :=
  if n % 2 = 1 then minMaxFrom (n - 1) 1 0 0 else .ask 1 0 fun b => minMaxFrom (n - 2) 2 (if b then 1 else 0) (if b then 0 else 1)

end Stl4go
