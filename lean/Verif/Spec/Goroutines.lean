import Verif.Model.Goroutines
/-!
# What goroutines may touch, and what they end with
-/
namespace Stl4go
variable {T α : Type}

/-- The addresses of the elements of a slice. -/
def Sl.Cell (s : Sl) (p : Nat) : Prop := s.off ≤ p ∧ p < s.off + s.len

/-- The elements that a call is given, to look at. -/
def SliceCall.sees : SliceCall T → Nat → Prop
  | .fill a _ | .fillZero a | .transform a _ | .replace a _ _ | .unique a | .removeIf a _ | .reverse a | .sort _ a _ | .makeHeap a _
  | .find a _ | .countIf a _ | .lowerBound a _ _ => a.Cell
  | .fillPattern a b => fun p => a.Cell p ∨ b.Cell p

/-- The elements that a call is given, to write to. -/
def SliceCall.changes : SliceCall T → Nat → Prop
  | .fill a _ | .fillZero a | .transform a _ | .replace a _ _ | .unique a | .removeIf a _ | .reverse a | .sort _ a _ | .makeHeap a _
  | .fillPattern a _ => a.Cell
  | .find _ _ | .countIf _ _ | .lowerBound _ _ _ => fun _ => False

/-- Calls that may run side by side: an element that one of them may write is out of reach of all others. -/
def CallsApart (cs : Nat → SliceCall T) : Prop := ∀ i j, i ≠ j → ∀ p, (cs i).changes p → ¬ (cs j).sees p

/-- How a goroutine has ended, if it has. -/
def Thread.ended : Thread T α → Option (Outcome α)
  | .ret a => some (.ret a)
  | .panic => some .panic
  | .diverge => some .diverge
  | _ => none

/-- How a call on its own ends. -/
def Res.outcome {σ : Type} : Res σ α → Outcome α
  | .ok a _ => .ret a
  | .panic _ => .panic
  | .diverge => .diverge

/-- The next access: the address, and whether it is a write. -/
def Thread.next : Thread T α → Option (Nat × Bool)
  | .load p _ => some (p, false)
  | .store p _ _ => some (p, true)
  | _ => none

/-- The number of accesses that a goroutine on its own makes, from memory `m`. -/
def Thread.steps : Thread T α → Mem T → Nat
  | .load p k, m => (k (m.cell p)).steps m + 1
  | .store p v k, m => k.steps (m.write p [v]) + 1
  | _, _ => 0

end Stl4go
