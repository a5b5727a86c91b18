import Verif.Model.Callback
import Verif.Model.HeapAny
import Verif.Model.SortAny
import Verif.Model.Stack
import Verif.Model.DList
import Verif.Model.SList
import Verif.Model.SkipListM
import Verif.Model.Transform
import Verif.Model.Vector
/-! # How much a call allocates -/
namespace Stl4go
variable {σ α T ρ τ K V : Type}

/-- However the run from `s` ends, the measure `μ` (cells or nodes ever allocated) has grown by exactly `k`, or, if the run panicked, by at most `k`. -/
def MakesFrom (μ : σ → Nat) (k : Nat) (s : σ) : Res σ α → Prop
  | .ok _ s' => μ s' = μ s + k
  | .panic s' => μ s ≤ μ s' ∧ μ s' ≤ μ s + k
  | .diverge => True

/-- From every state, whatever it is, the call allocates exactly `k` (at most `k` if it panics). -/
def Makes (μ : σ → Nat) (k : Nat) (x : GoM σ α) : Prop := ∀ s, MakesFrom μ k s (x s)

/-- Cells of backing arrays allocated so far. -/
abbrev memTop : Mem T → Nat := fun m => m.top
/-- The same, beside the state of callbacks. -/
abbrev csTop : CS T ρ → Nat := fun s => s.mem.top
/-- The same, beside a heap and the state of its comparison function. -/
abbrev hsTop : HS T τ → Nat := fun s => s.mem.top
/-- The same, beside a vector or stack. -/
abbrev vsTop : VS T → Nat := fun s => s.mem.top
/-- Nodes of doubly linked lists allocated so far. -/
abbrev dsNodes : DS T → Nat := fun s => s.heap.length
/-- Nodes of singly linked lists allocated so far. -/
abbrev lsNodes : LS T → Nat := fun s => s.heap.length
/-- Nodes of skip lists allocated so far. -/
abbrev slsNodes : SLS K V τ → Nat := fun s => s.sl.nodes.length

/-- What `Insert` does: either no node is made and `Len` stays, or one node is made and `Len` grows by one. -/
def SL.Inserted (sl sl' : SL K V) : Prop :=
  (sl'.nodes.length = sl.nodes.length ∧ sl'.len = sl.len) ∨ (sl'.nodes.length = sl.nodes.length + 1 ∧ sl'.len = sl.len + 1)

end Stl4go
