import Verif.Model.Vector
/-!
# Model of `/repo/stack.go`

A `Stack` has one field, the slice `elements`; the state of a method is the memory and that field (`VS` of `Model/Vector.lean`).
-/
namespace Stl4go
variable {T : Type}

/-- `NewStack`, `/repo/stack.go:10-12`, assigned to the receiver. -/
def Stk.new : GoM (VS T) Unit := VS.assign Sl.empty

/-- `NewStackCap`, `/repo/stack.go:15-17`, assigned to the receiver. -/
def Stk.newCap [GoZero T] (capacity : Int) : GoM (VS T) Unit := do
  let e ← VS.on (Sl.make 0 capacity)
  VS.assign e

/-- `IsEmpty`, `/repo/stack.go:20-22`. -/
def Stk.isEmpty : GoM (VS T) Bool := do
  let e ← VS.recv
  return e.len == 0

/-- `Len`, `/repo/stack.go:25-27`. -/
def Stk.len : GoM (VS T) Int := do
  let e ← VS.recv
  return e.len

/-- `Cap`, `/repo/stack.go:30-32`. -/
def Stk.cap : GoM (VS T) Int := do
  let e ← VS.recv
  return e.cap

/-- `Clear`, `/repo/stack.go:35-37`. -/
def Stk.clear : GoM (VS T) Unit := do
  let e ← VS.recv
  let t ← VS.on (e.slice 0 0)
  VS.assign t

/-- `Push`, `/repo/stack.go:40-42`. -/
def Stk.push [GoZero T] (grow : Nat → Nat → Nat) (t : T) : GoM (VS T) Unit := do
  let e ← VS.recv
  let e ← VS.on (e.append grow [t])
  VS.assign e

/-- `TryPop`, `/repo/stack.go:45-53`. -/
def Stk.tryPop [GoZero T] : GoM (VS T) (T × Bool) := do
  let e ← VS.recv
  if e.len = 0 then pure (GoZero.zero, false)
  else do
    let t ← VS.on (e.get (e.len - 1))
    let e ← VS.on (e.slice 0 (e.len - 1))
    VS.assign e
    return (t, true)

/-- `Pop`, `/repo/stack.go:58-62`. -/
def Stk.pop : GoM (VS T) T := do
  let e ← VS.recv
  let t ← VS.on (e.get (e.len - 1))
  let e ← VS.on (e.slice 0 (e.len - 1))
  VS.assign e
  return t

/-- `Top`, `/repo/stack.go:67-69`. -/
def Stk.top : GoM (VS T) T := do
  let e ← VS.recv
  VS.on (e.get (e.len - 1))

end Stl4go
