import Verif.Proofs.CallbackSearch
import Verif.Props.Callback
/-!
# Property C110: binary search with a comparison that is Go code

`less` may change any memory, the searched slice included, keep a state, contradict itself, panic and hang.
-/
namespace Stl4go
variable {T ρ : Type}

/-- C110: `LowerBoundFunc` calls `less(element, value)`; the position it returns agrees with all answers and they leave no other. A panic or a
hang is that of a call. -/
theorem C110_lowerBound (a : Sl) (value : T) (less : T → T → GoM (CS T ρ) Bool) (s : CS T ρ) :
    SearchOk (withElem a (fun x => less x value)) 0 a.len s (lowerBoundFuncE a value less s) := by
  unfold lowerBoundFuncE
  rw [lowerBoundFuncLoopE_eq a value less (a.len + 1) 0 a.len (by omega)]
  have := bisectLoop_ok (withElem a (fun x => less x value)) (a.len + 1) 0 a.len s (by omega)
  rwa [Nat.zero_add] at this

/-- C110: `UpperBoundFunc` calls `less(value, element)`; an element goes before the position if the answer is false. -/
theorem C110_upperBound (a : Sl) (value : T) (less : T → T → GoM (CS T ρ) Bool) (s : CS T ρ) :
    SearchOk (withElem a (fun x => do let b ← less value x; pure (!b))) 0 a.len s (upperBoundFuncE a value less s) := by
  unfold upperBoundFuncE
  rw [upperBoundFuncLoopE_eq a value less (a.len + 1) 0 a.len (by omega)]
  have := bisectLoop_ok (withElem a (fun x => do let b ← less value x; pure (!b))) (a.len + 1) 0 a.len s (by omega)
  rwa [Nat.zero_add] at this

/-- C110: `BinarySearchFunc` makes the calls of `LowerBoundFunc` and, if there is an element at its position, one of `less(value, element)`. -/
theorem C110_binarySearch (a : Sl) (value : T) (less : T → T → GoM (CS T ρ) Bool) (s : CS T ρ) :
    binarySearchFuncE a value less s =
      match lowerBoundFuncE a value less s with
      | .panic s' => .panic s'
      | .diverge => .diverge
      | .ok p s1 =>
        if p < a.len then
          match withElem a (less value) p s1 with
          | .panic s' => .panic s'
          | .diverge => .diverge
          | .ok false s' => .ok ((p : Int), true) s'
          | .ok true s' => .ok (-1, false) s'
        else .ok (-1, false) s1 := by
  simp only [binarySearchFuncE, GoM.bind_def]
  cases lowerBoundFuncE a value less s with
  | panic s' => rfl
  | diverge => rfl
  | ok p s1 =>
    simp only
    by_cases hp : p < a.len
    · rw [if_pos hp, if_pos hp]
      simp only [GoM.bind_def, CS.on_ok (Sl.get_ok a s1.mem p hp), withElem]
      rw [Sl.read_getElem]
      cases less value (s1.mem.cell (a.off + p)) { mem := s1.mem, st := s1.st } with
      | panic s' => rfl
      | diverge => rfl
      | ok b s' => cases b <;> rfl
    · rw [if_neg hp, if_neg hp]
      rfl

/-- A comparison for the examples: it overwrites element 2 and notes its first argument. -/
def eraser (a : Sl) (x y : Int) : GoM (CS Int (List Int)) Bool := fun s =>
  match CS.on (a.put 2 0) { s with st := s.st ++ [x] } with
  | .ok _ s' => .ok (decide (x < y)) s'
  | .panic s' => .panic s'
  | .diverge => .diverge

/-- The answer and the elements asked about. -/
def shown {α : Type} : Res (CS Int (List Int)) α → Option (α × List Int)
  | .ok a s => some (a, s.st)
  | _ => none

example : shown (lowerBoundFuncE ⟨0, 5, 5⟩ 4 (eraser ⟨0, 5, 5⟩) ⟨memOf [1, 2, 5, 7, 9], []⟩) = some (2, [5, 2]) := by decide +kernel
example : shown (binarySearchFuncE ⟨0, 5, 5⟩ 5 (eraser ⟨0, 5, 5⟩) ⟨memOf [1, 2, 5, 7, 9], []⟩) = some ((2, true), [5, 2, 5]) := by decide +kernel
/-- Three questions pin down a position in seven. -/
example : Narrows 0 7 [3, 5, 4] ∧ Bisects 0 7 [(3, true), (5, false), (4, true)] 5 := by
  refine ⟨⟨by decide, by decide, by decide⟩, by decide, by decide, by decide, by decide, by decide⟩

end Stl4go
