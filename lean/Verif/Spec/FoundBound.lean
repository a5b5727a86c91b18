import Verif.Spec.SearchBound
/-! # Specification: how many comparisons it takes to tell whether a value is there -/
namespace Stl4go

/-- One search after another: the second may depend on what the first finds. -/
def SearchProg.andThen (f : Nat → SearchProg) : SearchProg → SearchProg
  | .found r => f r
  | .ask x y k => .ask x y fun b => (k b).andThen f

/-- The way `BinarySearchFunc` searches, `/repo/binary_search.go:115-121`: after `LowerBoundFunc` one question `less(value, a[loc])`, unless `loc` is the end. It gives the position plus one,
and 0 if the value is not there. -/
def binarySearchProg (n : Nat) : SearchProg :=
  (lowerBoundProg (n + 1) 0 n).andThen fun r => if r < n then .ask none (some r) fun b => .found (if b then 0 else r + 1) else .found 0

/-- The program tells whether the value is there, in every ascending list of `n` integers: it gives 0 exactly if it is not. -/
def SearchProg.Tells (p : SearchProg) (n : Nat) : Prop :=
  ∀ (xs : List Int) (v : Int), xs.length = n → xs.Pairwise (· < ·) → ∃ r c, p.run (fun x y => decide (x < y)) xs v = some (r, c) ∧ (r ≠ 0 ↔ v ∈ xs)

/-- The program tells whether the value is there in every list of `n` integers, in whatever order, by asking whether two things are equal. -/
def SearchProg.TellsAny (p : SearchProg) (n : Nat) : Prop :=
  ∀ (xs : List Int) (v : Int), xs.length = n → ∃ r c, p.run (fun x y => decide (x = y)) xs v = some (r, c) ∧ (r ≠ 0 ↔ v ∈ xs)

end Stl4go
