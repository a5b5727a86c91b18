import Verif.Spec.SList
import Verif.Spec.SkipList
/-!
# What a container keeps from the garbage collector

A node is held by a container if pointers lead to it from the fields of the container.
-/
namespace Stl4go
variable {T K V : Type}

/-- `Reach link root p`: links lead from a root to `p`. -/
inductive Reach (link : Nat → Nat → Prop) (root : Nat → Prop) : Nat → Prop
  | root {p : Nat} : root p → Reach link root p
  | step {p q : Nat} : Reach link root p → link p q → Reach link root q

/-- The node `p` can be reached from the fields of the `SList` variable `i`. -/
def LWorld.Retains (w : LWorld T) (i : Nat) : Nat → Prop :=
  Reach (fun p q => ∃ n, w.heap[p]? = some n ∧ n.next = some q) (fun p => (w.vars i).head = some p ∨ (w.vars i).tail = some p)

/-- The value in the node `p`. -/
def LWorld.at (w : LWorld T) (p : Nat) : Option T := w.heap[p]?.map (·.value)

/-- The node `p` can be reached from the fields of the `DList` variable `i`. -/
def DWorld.Retains (w : DWorld T) (i : Nat) : Nat → Prop :=
  Reach (fun p q => ∃ n, w.heap[p]? = some n ∧ (n.next = some q ∨ n.prev = some q)) (fun p => (w.vars i).head = some p)

/-- The value in the node `p`. -/
def DWorld.at (w : DWorld T) (p : Nat) : Option T := w.heap[p]?.map (·.value)

/-- The node `p` can be reached from the fields of the skip list: the links of the head node, and the cache. -/
def SL.Retains (sl : SL K V) : Nat → Prop :=
  Reach (fun p q => ∃ n, ∃ i : Nat, sl.nodes[p]? = some n ∧ n.next[i]? = some (some q))
    (fun p => ∃ i : Nat, sl.headNext[i]? = some (some p) ∨ sl.prevsCache[i]? = some (some (.node p)))

/-- The key and the value in the node `p`. -/
def SL.at (sl : SL K V) (p : Nat) : Option (K × V) := sl.nodes[p]?.map (fun n => (n.key, n.value))

/-- A loop over the skip list from its start comes to the node `p`. -/
def SL.Visits (sl : SL K V) : Nat → Prop :=
  Reach (fun p q => ∃ n, sl.nodes[p]? = some n ∧ n.next[0]? = some (some q)) (fun p => sl.headNext[0]? = some (some p))

end Stl4go
