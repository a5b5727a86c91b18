import Verif.Model.PanicEq
import Verif.Spec.Transform
/-! # Specification for element types whose `==` can panic -/
namespace Stl4go
variable {T : Type}

/-- The comparisons that a loop would make, in order, give these answers; position `i` is the first one that is not `usual`. -/
def FirstOther (answers : List (Option Bool)) (usual : Option Bool → Prop) (i : Nat) (answer : Option Bool) : Prop :=
  answers[i]? = some answer ∧ ¬ usual answer ∧ ∀ j r, j < i → answers[j]? = some r → usual r

/-- Comparison number `i` is the first one that panics. -/
def FirstPanic (answers : List (Option Bool)) (i : Nat) : Prop := FirstOther answers (fun r => r ≠ none) i none

/-- `Unique`: the elements that follow the first and start a new run, until the end or (`true`) a comparison that panics. -/
def runsP [GoEqP T] (prev : T) : List T → List T × Bool
  | [] => ([], false)
  | v :: s =>
    match GoEqP.eq v prev with
    | none => ([], true)
    | some true => runsP prev s
    | some false => (v :: (runsP v s).1, (runsP v s).2)

/-- `UniqueCopy` compares the other way round. -/
def runsCopyP [GoEqP T] (prev : T) : List T → List T × Bool
  | [] => ([], false)
  | v :: s =>
    match GoEqP.eq prev v with
    | none => ([], true)
    | some true => runsCopyP prev s
    | some false => (v :: (runsCopyP v s).1, (runsCopyP v s).2)

/-- The list `s` after `kept` has been written over its start. -/
def over (kept s : List T) : List T := kept ++ s.drop kept.length

/-- Memory that was there before is unchanged. -/
def Untouched (m m' : Mem T) : Prop := m.top ≤ m'.top ∧ ∀ k, k < m.top → m'.cell k = m.cell k

end Stl4go
