import Verif.Spec.SkipList
/-!
# Links of a skip list

A node of level `l` stores `l` links (`/repo/skiplist_newnode.go`); the entries of a list are the nodes on the lowest level.
-/
namespace Stl4go
variable {K V : Type}

/-- The nodes that the links of the lowest level lead to, at most `fuel` of them. -/
def SL.chain (sl : SL K V) : (fuel : Nat) → Option Nat → List (SLNode K V)
  | 0, _ => []
  | _ + 1, none => []
  | fuel + 1, some p =>
    match sl.nodes[p]? with
    | none => []
    | some n => n :: sl.chain fuel (n.next[0]?.getD none)

/-- The nodes of a list; there are no more than were ever allocated. -/
def SL.entryNodes (sl : SL K V) : List (SLNode K V) := sl.chain sl.nodes.length (sl.headNext[0]?.getD none)

/-- The number of links stored in the nodes of a list. -/
def SL.linkSlots (sl : SL K V) : Nat := (sl.entryNodes.map (fun n => n.next.length)).sum

end Stl4go
