import Verif.Model.HeapMem
import Verif.Spec.SliceCost
/-! # Paths of a heap, and the memory a heap function has to do with -/
namespace Stl4go
variable {T τ : Type}

/-- Position `i` of the tree is position `j` or above it: numbered from one, the parent of a position is its half. -/
def Above (i j : Nat) : Prop := ∃ k, (j + 1) / 2 ^ k = i + 1

/-- Position `i` is on the path from the root to `p`, or is a child of a position on it. -/
def AtPath (p i : Nat) : Prop := Above i p ∨ (0 < i ∧ Above ((i - 1) / 2) p)

instance : HasMem (HS T τ) T := ⟨fun s => s.mem, fun s m => { s with mem := m }, fun _ _ => rfl, fun _ _ _ => rfl, fun _ => rfl⟩

/-- All memory that the call `y` in state `s` depends on or changes is at positions `P` of the slice `h` (`Sees` in `Spec/SliceCost.lean`), however the call ends. -/
def SeesAt (h : Sl) (P : Nat → Prop) (s : HS T τ) {α : Type} (y : GoM (HS T τ) α) : Prop :=
  ∃ L : List Nat, (∀ k ∈ L, ∃ i, P i ∧ k = h.off + i) ∧ Sees L s y

end Stl4go
