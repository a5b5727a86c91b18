import Verif.Model.TestHelper
/-!
# What the test helpers are for (C157)

A relation either holds or not; if it does not, the test is to fail with a text that names both values and the relation.
-/
namespace Stl4go
variable {T W V : Type}

/-- The relations that can be asserted. -/
inductive Rel where
  | eq | ne | lt | gt | le | ge
deriving DecidableEq

/-- What Go says the operators mean. -/
def Rel.Holds [GoOrd T] : Rel → T → T → Prop
  | .eq, a, b => GoEq.eq a b = true
  | .ne, a, b => GoEq.eq a b = false
  | .lt, a, b => GoOrd.lt a b = true
  | .gt, a, b => GoOrd.lt b a = true
  | .le, a, b => GoOrd.lt a b = true ∨ GoEq.eq a b = true
  | .ge, a, b => GoOrd.lt b a = true ∨ GoEq.eq a b = true

/-- How the operators are written. -/
def Rel.symbol : Rel → String
  | .eq => "==" | .ne => "!=" | .lt => "<" | .gt => ">" | .le => "<=" | .ge => ">="

/-- The assertion for a relation. -/
def Rel.expect [GoOrd T] : Rel → (T → List Char) → TestRun W → T → T → TestRun W
  | .eq => expectEq | .ne => expectNe | .lt => expectLt | .gt => expectGt | .le => expectLe | .ge => expectGe

/-- The test goes on, marked as failed, with one more message; nothing else changed. -/
def Complains (msg : List Char) (t t' : TestRun W) : Prop :=
  t'.logged = t.logged ++ [some ("Wrong: ".toList ++ msg ++ "\n".toList)] ∧ t'.failed = true ∧ t'.w = t.w

/-- The message for a relation that does not hold between values that are shown as `x` and `y`. -/
def mismatch (x : List Char) (op : String) (y : List Char) : List Char := x ++ ' ' :: op.toList ++ ' ' :: y

/-- The messages of those of the assertions that do not hold, in order. -/
def complaints (holds : Rel → T → T → Bool) (shows : T → List Char) : List (Rel × T × T) → List (Option (List Char))
  | [] => []
  | (r, a, b) :: rest =>
    if holds r a b then complaints holds shows rest
    else some ("Wrong: ".toList ++ mismatch (shows a) r.symbol (shows b) ++ "\n".toList) :: complaints holds shows rest

end Stl4go
