import Verif.Model.Numeric
/-!
# NaN

The types of Go's constraint `Ordered` (`/repo/types.go:31-37`) with the floats among them.
-/
namespace Stl4go
variable {T : Type}

/-- Not equal to itself. -/
def isNan [GoEq T] (a : T) : Bool := !GoEq.eq a a

/-- What Go says about `<` and `==` of all these types: a NaN compares false with everything, and the rest is ordered. -/
class FloatOrd (T : Type) [GoOrd T] : Prop where
  nan : ∀ a b : T, isNan a = true → GoOrd.lt a b = false ∧ GoOrd.lt b a = false ∧ GoEq.eq a b = false ∧ GoEq.eq b a = false
  irrefl : ∀ a : T, GoOrd.lt a a = false
  trans : ∀ a b c : T, GoOrd.lt a b = true → GoOrd.lt b c = true → GoOrd.lt a c = true
  between : ∀ a b c : T, isNan b = false → GoOrd.lt a c = true → GoOrd.lt a b = true ∨ GoOrd.lt b c = true
  eq_iff : ∀ a b : T, isNan a = false → isNan b = false → (GoEq.eq a b = true ↔ (GoOrd.lt a b = false ∧ GoOrd.lt b a = false))

/-- `==` of floats. -/
def Flt.eq : Flt → Flt → Bool
  | .fin a, .fin b => decide (a = b)
  | .inf s, .inf t => s == t
  | _, _ => false

instance : GoOrd Flt where
  lt := Flt.lt
  eq := Flt.eq

/-- Two elements that `Compare` treats alike: equal ones, and any pair with a NaN. -/
def AlikeNan [GoEq T] (x y : T) : Prop := GoEq.eq x y = true ∨ isNan x = true ∨ isNan y = true

/-- The first `n` elements of both are alike. -/
def AlikeUpTo [GoEq T] (a b : List T) (n : Nat) : Prop :=
  n ≤ a.length ∧ n ≤ b.length ∧ ∀ i (ha : i < a.length) (hb : i < b.length), i < n → AlikeNan a[i] b[i]

/-- Ascending, without NaN. -/
def Ascends [GoOrd T] (s : List T) : Prop := s.Pairwise (fun x y => GoOrd.lt y x = false) ∧ ∀ x ∈ s, isNan x = false

end Stl4go
