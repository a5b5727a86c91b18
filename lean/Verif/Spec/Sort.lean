import Verif.Model.Sort
import Verif.Spec.Order
import Verif.Spec.Transform
/-!
# Specification of sorting

The contracts say what the documentation of Go's package `sort` promises of `sort.Sort` and `sort.Stable`, for ideal data: a list, where
`Less` compares and `Swap` exchanges the elements at two positions. They are hypotheses of the theorems about `/repo/sort.go`;
`Proofs/SortWitness.lean` has an algorithm that meets them.
-/
namespace Stl4go
variable {T : Type}

/-- `R` holds for every two neighbours. -/
def Neighbours (R : T → T → Prop) : List T → Prop
  | x :: y :: a => R x y ∧ Neighbours R (y :: a)
  | _ => True

/-- Running a program on a list; `none` if it uses a position outside. -/
def SortProg.onList (less : T → T → Bool) : SortProg → List T → Option (List T)
  | .done, a => some a
  | .less i j k, a =>
    match a[i]?, a[j]? with
    | some x, some y => (k (less x y)).onList less a
    | _, _ => none
  | .swap i j k, a =>
    match a[i]?, a[j]? with
    | some x, some y => k.onList less ((a.set i y).set j x)
    | _, _ => none

/-- `out` is `a` with the elements equivalent to `x` in the same order, for every `x`. -/
def KeepsOrder (less : T → T → Bool) (a out : List T) : Prop :=
  ∀ x, out.filter (fun y => !less x y && !less y x) = a.filter (fun y => !less x y && !less y x)

/-- The promise of `sort.Sort`: in the end no later element is less than an earlier one. -/
def SortContract (sort : Nat → SortProg) : Prop :=
  ∀ (T : Type) (less : T → T → Bool), StrictWeak less → ∀ a : List T, ∃ out, (sort a.length).onList less a = some out ∧ SortedBy less out

/-- The promise of `sort.Stable`. -/
def StableContract (stable : Nat → SortProg) : Prop :=
  ∀ (T : Type) (less : T → T → Bool), StrictWeak less → ∀ a : List T,
    ∃ out, (stable a.length).onList less a = some out ∧ SortedBy less out ∧ KeepsOrder less a out

/-- Also with an inconsistent `less` only positions of the data are used. -/
def StaysInside (sort : Nat → SortProg) : Prop :=
  ∀ (T : Type) (less : T → T → Bool) (a : List T), ∃ out, (sort a.length).onList less a = some out

/-- `x` put into `a` after the last element that is not greater, looking from the end. -/
def insertLast (less : T → T → Bool) (x : T) : (reversed : List T) → List T
  | [] => [x]
  | y :: a => if less x y then insertLast less x a ++ [y] else (x :: y :: a).reverse

/-- Stable sorting by definition: insert one element after the other. -/
def sortedStably (less : T → T → Bool) (a : List T) : List T := a.foldl (fun out x => insertLast less x out.reverse) []

end Stl4go
