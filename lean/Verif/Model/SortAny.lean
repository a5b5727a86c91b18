import Verif.Model.Sort
import Verif.Model.HeapAny
/-!
# Model of `SortFunc` and `StableSortFunc` of `/repo/sort.go` with a comparison function that is any Go code

In `Model/Sort.lean` a comparison function is pure. Here it may keep a state, panic, never return, write the elements of the slice and assign the variable the slice was
taken from. The state is that of `Model/HeapAny.lean`: the memory, the variables of the comparison function, and a slice variable of the client.
-/
namespace Stl4go
variable {T τ : Type}

/-- `funcSortable`, `/repo/sort.go:85-92`. Its field `e` is a slice header of its own. -/
def funcSortableA (e : Sl) (less : LessA T τ) : SortIface (HS T τ) where
  len := pure e.len
  less i j := do
    let y ← HS.on (e.get i)
    let z ← HS.on (e.get j)
    less y z
  swap i j := HS.on (sortSwap e i j)

/-- `SortFunc`, `/repo/sort.go:98-100`. -/
def sortFuncA (sort : Nat → SortProg) (a : Sl) (less : LessA T τ) : GoM (HS T τ) Unit := goSort sort (funcSortableA a less)

/-- `StableSortFunc`, `/repo/sort.go:106-108`. -/
def stableSortFuncA (stable : Nat → SortProg) (a : Sl) (less : LessA T τ) : GoM (HS T τ) Unit := goSort stable (funcSortableA a less)

end Stl4go
