import Verif.Spec.AskBound
/-! # Specification: which elements have to be looked at -/
namespace Stl4go
variable {T R : Type}

/-- Any way to find something out about a list by looking at its elements: look at the one at some position, as often as needed, and then give an answer; what is done next may depend on the
elements in any way. -/
inductive ReadProg (T R : Type) where
  | done (r : R)
  | read (i : Nat) (k : T → ReadProg T R)

/-- Its answer, and the positions it looks at; `none` if it looks outside. -/
def ReadProg.run (xs : List T) : ReadProg T R → Option (R × List Nat)
  | .done r => some (r, [])
  | .read i k => match xs[i]? with
    | some x => ((k x).run xs).map fun q => (q.1, i :: q.2)
    | none => none

/-- The program finds out `f xs` for every list of `n` elements that are legal. -/
def ReadProg.Computes (p : ReadProg T R) (n : Nat) (legal : T → Prop) (f : List T → R) : Prop :=
  ∀ xs : List T, xs.length = n → (∀ x ∈ xs, legal x) → ∃ ps, p.run xs = some (f xs, ps)

/-- Every program that finds out `f` for the lists of the length of `xs` looks at all elements of `xs`, so at least as often as there are elements. -/
def MustReadAll (legal : T → Prop) (f : List T → R) (xs : List T) : Prop :=
  ∀ p : ReadProg T R, p.Computes xs.length legal f → ∃ ps, p.run xs = some (f xs, ps) ∧ (∀ i, i < xs.length → i ∈ ps) ∧ xs.length ≤ ps.length

/-- The looks at elements that a record shows. -/
def readsOf (t : List (Look T)) : List (Look T) := t.filter Look.isRead

end Stl4go
