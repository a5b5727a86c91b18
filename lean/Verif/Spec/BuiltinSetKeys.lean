import Verif.Spec.BuiltinSet
/-! # Sets with keys that are equal but not the same, or not equal to themselves -/
namespace Stl4go
variable {K : Type}

/-- `==` is symmetric and transitive; a key need not be equal to itself (NaN), and equal keys need not be the same (-0 and +0). This holds
for all comparable types of Go. -/
class PartialGoEq (K : Type) [GoEq K] : Prop where
  symm : ∀ a b : K, GoEq.eq a b = true → GoEq.eq b a = true
  trans : ∀ a b c : K, GoEq.eq a b = true → GoEq.eq b c = true → GoEq.eq a c = true

instance [GoEq K] [LawfulGoEq K] : PartialGoEq K := ⟨LawfulGoEq.symm, LawfulGoEq.trans⟩

/-- One of the keys is equal to `k`. -/
def among [GoEq K] (l : List K) (k : K) : Bool := l.any (fun e => GoEq.eq k e)

end Stl4go
