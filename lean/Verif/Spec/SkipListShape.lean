import Verif.Spec.SkipListM
import Verif.Spec.SkipListMemory
/-!
# The shape of a skip list

What is left of the history of a skip list: its entries in order, and the level of the node that each one lives in.
-/
namespace Stl4go
variable {K V : Type}

/-- The keys, each with the level of its node (`/repo/skiplist_newnode.go`: a node of level `l` stores `l` links). -/
def SL.towers (sl : SL K V) : List (K × Nat) := sl.entryNodes.map (fun n => (n.key, n.next.length))

/-- The entries, each with the level of its node. -/
def SL.shape (sl : SL K V) : List (K × V × Nat) := sl.entryNodes.map (fun n => (n.key, n.value, n.next.length))

/-- The level of the highest node; 1 for an empty list. -/
def SL.highest (sl : SL K V) : Nat := sl.entryNodes.foldr (fun n h => max n.next.length h) 1

end Stl4go
