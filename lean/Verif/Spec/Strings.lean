import Verif.Model.Strings
import Verif.Spec.BuiltinSet
/-! # Specification of the `String` methods -/
namespace Stl4go

/-- Words with a space between neighbours. -/
def spaced : List (List Char) → List Char
  | [] => []
  | [w] => w
  | w :: v :: l => w ++ [' '] ++ spaced (v :: l)

/-- What `reflect` calls the pointer to a type called `name`. -/
def pointerTo (name : List Char) : List Char := '*' :: name

/-- A word: something, and no space in it. -/
def Word (w : List Char) : Prop := w ≠ [] ∧ ' ' ∉ w

end Stl4go
