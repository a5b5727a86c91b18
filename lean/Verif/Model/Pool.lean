import Verif.Model.Basic
/-!
# Model of `/repo/pool.go`

Objects are numbers; `none` is the nil pointer. An object keeps its number for ever: that Go reuses the memory of objects nobody can reach is not
modelled. `sync.Pool` is not part of the repository; its model here follows its documentation: it may drop any objects at any time, and `Get` may take
any object it still has or act as if it had none. `Get` and `Put` are atomic steps, as `sync.Pool` may be used concurrently.
-/
namespace Stl4go

/-- A pointer of type `*T`, `/repo/pool.go:22`. -/
abbrev PtrT := Option Nat

/-- A value of type `any` that holds a `*T`, or the nil interface (`none`), `/repo/pool.go:23-24`. -/
abbrev AnyPtr := Option PtrT

/-- The objects allocated so far (those below `next`), the contents of the pool, and the number of calls of `sync.Pool` so far (`/repo/pool.go:23`). -/
structure PWorld where
  next : Nat
  kept : List PtrT
  calls : Nat

/-- The choices of `sync.Pool` (`/repo/pool.go:23`): which objects it drops, and which one `Get` takes, if any. -/
structure PoolRt where
  drop : Nat → Nat → Bool
  pick : Nat → Nat

/-- `Pool`, `/repo/pool.go:6`: the field `New`, nil if `none`. -/
structure PoolV where
  new : Option (GoM PWorld AnyPtr)

/-- The objects of a list not dropped; the positions start at `i` (`/repo/pool.go:23`). -/
def keepFrom (drop : Nat → Bool) : (i : Nat) → List PtrT → List PtrT
  | _, [] => []
  | i, x :: l => if drop i then keepFrom drop (i + 1) l else x :: keepFrom drop (i + 1) l

/-- `new(T)` for a type that has a size, `/repo/pool.go:10`. -/
def newT : GoM PWorld PtrT := fun w => .ok (some w.next) { w with next := w.next + 1 }

/-- `new(T)` for a type of size 0 such as `struct{}` (`/repo/pool.go:10`): the language allows all pointers to be equal. -/
def newT0 : GoM PWorld PtrT := fun w => .ok (some 0) { w with next := max w.next 1 }

/-- `(*sync.Pool).Get`, called in `/repo/pool.go:23`. -/
def syncGet (rt : PoolRt) (p : PoolV) : GoM PWorld AnyPtr := fun w =>
  let kept := keepFrom (rt.drop w.calls) 0 w.kept
  match kept[rt.pick w.calls]? with
  | some x => .ok (some x) { w with kept := kept.eraseIdx (rt.pick w.calls), calls := w.calls + 1 }
  | none =>
    match p.new with
    | none => .ok none { w with kept := kept, calls := w.calls + 1 }
    | some f => f { w with kept := kept, calls := w.calls + 1 }

/-- `(*sync.Pool).Put`, called in `/repo/pool.go:33`. -/
def syncPut (rt : PoolRt) (x : PtrT) : GoM PWorld Unit := fun w =>
  .ok () { w with kept := x :: keepFrom (rt.drop w.calls) 0 w.kept, calls := w.calls + 1 }

/-- `MakePool`, `/repo/pool.go:9-11`, for a given `new(T)`. -/
def makePool (newT : GoM PWorld PtrT) : PoolV := { new := some (do let x ← newT; return some x) }

/-- `MakePoolWithNew`, `/repo/pool.go:14-19`. -/
def makePoolWithNew (new : Option (GoM PWorld PtrT)) : PoolV :=
  match new with
  | some f => { new := some (do let x ← f; return some x) }
  | none => { new := none }

/-- `Get`, `/repo/pool.go:22-28`. -/
def poolGet (rt : PoolRt) (p : PoolV) : GoM PWorld PtrT := do
  let i ← syncGet rt p
  match i with
  | none => return none
  | some x => return x

/-- `Put`, `/repo/pool.go:31-35`. -/
def poolPut (rt : PoolRt) (x : PtrT) : GoM PWorld Unit := do
  if x ≠ none then syncPut rt x else return ()

end Stl4go
