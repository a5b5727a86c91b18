import Verif.Model.Callback
/-! # Specification: how many comparisons a search takes -/
namespace Stl4go
variable {T : Type}

/-- A comparison function of the client that answers like `l` and counts its calls in a variable. -/
def countedCmp (l : T → T → Bool) : T → T → GoM (CS T Nat) Bool := fun x y s => .ok (l x y) { s with st := s.st + 1 }

/-- The most calls that a search in `n` elements needs: `⌊log₂ n⌋ + 1`, and none in an empty slice. -/
def mostCalls (n : Nat) : Nat := if n = 0 then 0 else Nat.log2 n + 1

/-- Any way to search by comparisons: ask whether one of two things is less than the other, each an element of the slice (its position) or the value to be found (`none`), as often as
needed, and then give a position. -/
inductive SearchProg where
  | found (r : Nat)
  | ask (x y : Option Nat) (k : Bool → SearchProg)

/-- What it finds, and after how many questions; `none` if it asks about a position outside. -/
def SearchProg.run (l : T → T → Bool) (xs : List T) (v : T) : SearchProg → Option (Nat × Nat)
  | .found r => some (r, 0)
  | .ask x y k =>
    match x.elim (some v) (xs[·]?), y.elim (some v) (xs[·]?) with
    | some a, some b => ((k (l a b)).run l xs v).map fun q => (q.1, q.2 + 1)
    | _, _ => none

/-- The way `LowerBoundFunc` searches, `/repo/binary_search.go:32-48`, in positions: each question is `less(a[i], value)`. -/
def lowerBoundProg : (fuel loc count : Nat) → SearchProg
  | 0, loc, _ => .found loc
  | fuel + 1, loc, count =>
    if count > 0 then .ask (some (loc + count / 2)) none fun b =>
      if b then lowerBoundProg fuel (loc + count / 2 + 1) (count - (count / 2 + 1)) else lowerBoundProg fuel loc (count / 2)
    else .found loc

/-- The program finds the first position whose element is not less than the value, in every ascending list of `n` integers. -/
def SearchProg.FindsLowerBound (p : SearchProg) (n : Nat) : Prop :=
  ∀ (xs : List Int) (v : Int), xs.length = n → xs.Pairwise (· < ·) → ∃ c, p.run (fun x y => decide (x < y)) xs v = some (xs.countP (fun x => decide (x < v)), c)

/-- The program finds the first position whose element is greater than the value, in every ascending list of `n` integers. -/
def SearchProg.FindsUpperBound (p : SearchProg) (n : Nat) : Prop :=
  ∀ (xs : List Int) (v : Int), xs.length = n → xs.Pairwise (· < ·) → ∃ c, p.run (fun x y => decide (x < y)) xs v = some (xs.countP (fun x => decide (x ≤ v)), c)

end Stl4go
