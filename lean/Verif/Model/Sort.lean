import Verif.Model.Slice
/-!
# Model of `/repo/sort.go`

`sort.Sort` and `sort.Stable` are not part of `/repo`. They only know the data through `Len`, `Less` and `Swap`, so they are any program
that reads the length once and then makes calls of `Less` and `Swap` depending on the answers so far. `less` functions are pure.
-/
namespace Stl4go
variable {T σ : Type}

/-- Loop of `IsSorted`, `/repo/sort.go:15-20`. -/
def isSortedLoop [GoOrd T] : (a : List T) → (prev : T) → Bool
  | [], _ => true
  | v :: a, prev => if GoOrd.lt v prev then false else isSortedLoop a v

/-- `IsSorted`, `/repo/sort.go:10-22`. -/
def isSorted [GoOrd T] (a : List T) : Outcome Bool :=
  if a.length = 0 then .ret true
  else do
    let prev ← idx a 0
    return isSortedLoop (a.drop 1) prev

/-- Loop of `IsDescSorted`, `/repo/sort.go:32-37`. -/
def isDescSortedLoop [GoOrd T] : (a : List T) → (prev : T) → Bool
  | [], _ => true
  | v :: a, prev => if GoOrd.lt prev v then false else isDescSortedLoop a v

/-- `IsDescSorted`, `/repo/sort.go:27-39`. -/
def isDescSorted [GoOrd T] (a : List T) : Outcome Bool :=
  if a.length = 0 then .ret true
  else do
    let prev ← idx a 0
    return isDescSortedLoop (a.drop 1) prev

/-- A value of `sort.Interface`, passed at `/repo/sort.go:52`. -/
structure SortIface (σ : Type) where
  len : GoM σ Nat
  less : Nat → Nat → GoM σ Bool
  swap : Nat → Nat → GoM σ Unit

/-- What `sort.Sort` (`/repo/sort.go:52`) may do once it knows the length. -/
inductive SortProg where
  | done
  | less (i j : Nat) (k : Bool → SortProg)
  | swap (i j : Nat) (k : SortProg)

/-- Running it on some data (`/repo/sort.go:52`). -/
def SortProg.run (x : SortIface σ) : SortProg → GoM σ Unit
  | .done => pure ()
  | .less i j k => do
    let b ← x.less i j
    (k b).run x
  | .swap i j k => do
    x.swap i j
    k.run x

/-- `sort.Sort(data)` or `sort.Stable(data)` (`/repo/sort.go:52`, `/repo/sort.go:60`) for an algorithm that chooses a program for a length. -/
def goSort (sort : Nat → SortProg) (x : SortIface σ) : GoM σ Unit := do
  let n ← x.len
  (sort n).run x

/-- `x[i], x[j] = x[j], x[i]`, `/repo/sort.go:45`, `/repo/sort.go:67`, `/repo/sort.go:92`. -/
def sortSwap (x : Sl) (i j : Nat) : GoM (Mem T) Unit := do
  let y ← x.get j
  let z ← x.get i
  x.put i y
  x.put j z

/-- `ascSlice`, `/repo/sort.go:41-45`. -/
def ascSlice [GoOrd T] (x : Sl) : SortIface (Mem T) where
  len := pure x.len
  less i j := do
    let y ← x.get i
    let z ← x.get j
    return GoOrd.lt y z
  swap := sortSwap x

/-- `descSlice`, `/repo/sort.go:63-67`. -/
def descSlice [GoOrd T] (x : Sl) : SortIface (Mem T) where
  len := pure x.len
  less i j := do
    let y ← x.get i
    let z ← x.get j
    return GoOrd.lt z y
  swap := sortSwap x

/-- `funcSortable`, `/repo/sort.go:85-92`. -/
def funcSortable (e : Sl) (less : T → T → Bool) : SortIface (Mem T) where
  len := pure e.len
  less i j := do
    let y ← e.get i
    let z ← e.get j
    return less y z
  swap := sortSwap e

/-- `Sort`, `/repo/sort.go:51-53`. -/
def sortAsc [GoOrd T] (sort : Nat → SortProg) (a : Sl) : GoM (Mem T) Unit := goSort sort (ascSlice a)

/-- `StableSort`, `/repo/sort.go:59-61`. -/
def stableSort [GoOrd T] (stable : Nat → SortProg) (a : Sl) : GoM (Mem T) Unit := goSort stable (ascSlice a)

/-- `DescSort`, `/repo/sort.go:73-75`. -/
def descSort [GoOrd T] (sort : Nat → SortProg) (a : Sl) : GoM (Mem T) Unit := goSort sort (descSlice a)

/-- `DescStableSort`, `/repo/sort.go:81-83`. -/
def descStableSort [GoOrd T] (stable : Nat → SortProg) (a : Sl) : GoM (Mem T) Unit := goSort stable (descSlice a)

/-- `SortFunc`, `/repo/sort.go:98-100`. -/
def sortFunc (sort : Nat → SortProg) (a : Sl) (less : T → T → Bool) : GoM (Mem T) Unit := goSort sort (funcSortable a less)

/-- `StableSortFunc`, `/repo/sort.go:106-108`. -/
def stableSortFunc (stable : Nat → SortProg) (a : Sl) (less : T → T → Bool) : GoM (Mem T) Unit := goSort stable (funcSortable a less)

end Stl4go
