import Verif.Spec.Sort
/-! # Specification of calls one after another on the same slice -/
namespace Stl4go
variable {T σ τ : Type}

/-- One callback that does what two do one after the other. -/
def inTurn (f : σ → T → σ × T) (g : τ → T → τ × T) : σ × τ → T → (σ × τ) × T :=
  fun u x => (((f u.1 x).1, (g u.2 (f u.1 x).2).1), (g u.2 (f u.1 x).2).2)

/-- One predicate for two: the second one is asked only if the first one says no. -/
def orElse (f : σ → T → σ × Bool) (g : τ → T → τ × Bool) : σ × τ → T → (σ × τ) × Bool :=
  fun u x => if (f u.1 x).2 then (((f u.1 x).1, u.2), true) else (((f u.1 x).1, (g u.2 x).1), (g u.2 x).2)

/-- Order by the first, and where that does not decide by the second. -/
def thenBy (less1 less2 : T → T → Bool) : T → T → Bool := fun x y => less1 x y || (!less1 y x && less2 x y)

end Stl4go
