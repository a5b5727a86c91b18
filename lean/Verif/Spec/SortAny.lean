import Verif.Model.SortAny
import Verif.Spec.Sort
import Verif.Spec.HeapAny
import Verif.Spec.HeapMem
/-! # What sorting may do when its comparison function does more than compare -/
namespace Stl4go

/-- All positions that the program uses are less than `n`, whatever the answers are. -/
def SortProg.Within (n : Nat) : SortProg → Prop
  | .done => True
  | .less i j k => i < n ∧ j < n ∧ ∀ b, (k b).Within n
  | .swap i j k => i < n ∧ j < n ∧ k.Within n

/-- The largest number of comparisons the program makes. -/
def SortProg.calls : SortProg → Nat
  | .done => 0
  | .less _ _ k => max (k true).calls (k false).calls + 1
  | .swap _ _ k => k.calls

/-- `sort.Sort` uses only positions of the data, whatever `Less` answers, also if it answers differently for the same elements. -/
def SortsInside (sort : Nat → SortProg) : Prop := ∀ n, (sort n).Within n

end Stl4go
