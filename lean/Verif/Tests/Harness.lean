import Verif.Model.Slice
/-!
# The tests of `/repo`, run on the model: what a test does

The files in this directory transcribe the unit tests of `/repo` and run them on the model. They are tests: they prove nothing about all
inputs. What they check is that the model behaves as the code does on the cases for which the authors wrote down what the code does.
-/
namespace Stl4go.Tests
variable {σ α : Type}

/-- `expectTrue`, `/repo/test_helper.go:60-65`; a failed expectation ends the test here with `diverge`, so that a later panic does not hide it. -/
def expectTrue (b : Bool) : GoM σ Unit := if b then pure () else GoM.diverge

/-- `expectFalse`, `/repo/test_helper.go:67-72`. -/
def expectFalse (b : Bool) : GoM σ Unit := expectTrue (!b)

/-- `expectEq`, `/repo/test_helper.go:18-23`. -/
def expectEq [DecidableEq α] (a b : α) : GoM σ Unit := expectTrue (decide (a = b))

/-- `expectNe`, `/repo/test_helper.go:25-30`. -/
def expectNe [DecidableEq α] (a b : α) : GoM σ Unit := expectTrue (decide (a ≠ b))

/-- `expectGt`, `/repo/test_helper.go:39-44`. -/
def expectGt (a b : Int) : GoM σ Unit := expectTrue (decide (b < a))

/-- `expectPanic`, `/repo/test_helper.go:74-83`: the test goes on in the state that the panic left. -/
def expectPanic (x : GoM σ α) : GoM σ Unit := fun s =>
  match x s with
  | .panic s' => .ok () s'
  | _ => .diverge

/-- A call of a function that has no effects. -/
def call (x : Outcome α) : GoM σ α := fun s =>
  match x with
  | .ret a => .ok a s
  | .panic => .panic s
  | .diverge => .diverge

/-- The test ran to its end from the state `s`. -/
def passes (t : GoM σ Unit) (s : σ) : Bool :=
  match t s with
  | .ok _ _ => true
  | _ => false

/-- A memory with nothing in it. -/
def noMem [GoZero α] : Mem α := { cell := fun _ => GoZero.zero, top := 0 }

/-- A growth of `append` that leaves room, for the tests that do not look at capacities. -/
def growth (c n : Nat) : Nat := Nat.max (2 * c) n

example : passes (do expectEq 1 1; expectPanic (GoM.panic : GoM Unit Unit); expectNe 1 2) () = true ∧
    passes (do expectEq 1 1; expectPanic (pure () : GoM Unit Unit)) () = false ∧ passes (GoM.panic : GoM Unit Unit) () = false ∧
    passes (expectEq 1 2 : GoM Unit Unit) () = false := by decide

end Stl4go.Tests
