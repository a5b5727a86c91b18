import Verif.Model.BinarySearch
import Verif.Model.Vector
import Verif.Model.Numeric
/-!
# Index arithmetic with Go's `int`

The functions of `/repo/binary_search.go` and the methods of Vector that add to an index, once more with every sum and difference reduced to `int`, of `w` bits. The other
definitions of the model compute with unbounded integers.
-/
namespace Stl4go
variable {T : Type}

/-- `a + b` in `int` (`/repo/binary_search.go:14`). -/
def addInt (w : Nat) (a b : Int) : Int := GoInt.int.wrap w (a + b)
/-- `a - b` in `int` (`/repo/binary_search.go:18`). -/
def subInt (w : Nat) (a b : Int) : Int := GoInt.int.wrap w (a - b)

/-- `a[i]` for an `i` that may be negative (`/repo/binary_search.go:15`). -/
def idxInt (a : List T) (i : Int) : Outcome T := if i < 0 then .panic else idx a i.toNat

/-- Loop of `LowerBound`, `/repo/binary_search.go:11-22`. -/
def lowerBoundLoopInt [GoOrd T] (w : Nat) (a : List T) (value : T) : (fuel : Nat) → (loc count : Int) → Outcome Int
  | 0, _, _ => .diverge
  | fuel + 1, loc, count =>
    if count > 0 then do
      let step := count.tdiv 2
      let i := addInt w loc step
      let x ← idxInt a i
      if GoOrd.lt x value then lowerBoundLoopInt w a value fuel (addInt w i 1) (subInt w count (addInt w step 1))
      else lowerBoundLoopInt w a value fuel loc step
    else .ret loc

/-- `LowerBound`, `/repo/binary_search.go:8-24`. -/
def lowerBoundInt [GoOrd T] (w : Nat) (a : List T) (value : T) : Outcome Int := lowerBoundLoopInt w a value (a.length + 1) 0 a.length

/-- Loop of `LowerBoundFunc`, `/repo/binary_search.go:35-46`. -/
def lowerBoundFuncLoopInt (w : Nat) (a : List T) (value : T) (less : T → T → Bool) : (fuel : Nat) → (loc count : Int) → Outcome Int
  | 0, _, _ => .diverge
  | fuel + 1, loc, count =>
    if count > 0 then do
      let step := count.tdiv 2
      let i := addInt w loc step
      let x ← idxInt a i
      if less x value then lowerBoundFuncLoopInt w a value less fuel (addInt w i 1) (subInt w count (addInt w step 1))
      else lowerBoundFuncLoopInt w a value less fuel loc step
    else .ret loc

/-- `LowerBoundFunc`, `/repo/binary_search.go:32-48`. -/
def lowerBoundFuncInt (w : Nat) (a : List T) (value : T) (less : T → T → Bool) : Outcome Int := lowerBoundFuncLoopInt w a value less (a.length + 1) 0 a.length

/-- Loop of `UpperBound`, `/repo/binary_search.go:57-68`. -/
def upperBoundLoopInt [GoOrd T] (w : Nat) (a : List T) (value : T) : (fuel : Nat) → (loc count : Int) → Outcome Int
  | 0, _, _ => .diverge
  | fuel + 1, loc, count =>
    if count > 0 then do
      let step := count.tdiv 2
      let i := addInt w loc step
      let x ← idxInt a i
      if !(GoOrd.lt value x) then upperBoundLoopInt w a value fuel (addInt w i 1) (subInt w count (addInt w step 1))
      else upperBoundLoopInt w a value fuel loc step
    else .ret loc

/-- `UpperBound`, `/repo/binary_search.go:54-70`. -/
def upperBoundInt [GoOrd T] (w : Nat) (a : List T) (value : T) : Outcome Int := upperBoundLoopInt w a value (a.length + 1) 0 a.length

/-- Loop of `UpperBoundFunc`, `/repo/binary_search.go:81-92`. -/
def upperBoundFuncLoopInt (w : Nat) (a : List T) (value : T) (less : T → T → Bool) : (fuel : Nat) → (loc count : Int) → Outcome Int
  | 0, _, _ => .diverge
  | fuel + 1, loc, count =>
    if count > 0 then do
      let step := count.tdiv 2
      let i := addInt w loc step
      let x ← idxInt a i
      if !(less value x) then upperBoundFuncLoopInt w a value less fuel (addInt w i 1) (subInt w count (addInt w step 1))
      else upperBoundFuncLoopInt w a value less fuel loc step
    else .ret loc

/-- `UpperBoundFunc`, `/repo/binary_search.go:78-94`. -/
def upperBoundFuncInt (w : Nat) (a : List T) (value : T) (less : T → T → Bool) : Outcome Int := upperBoundFuncLoopInt w a value less (a.length + 1) 0 a.length

/-- `Insert`, `/repo/vector.go:129-144`. -/
def Vec.insertInt [GoZero T] (w : Nat) (i : Int) (x : Sl) : GoM (VS T) Unit := do
  let s ← VS.recv
  let total := addInt w s.len x.len
  if total ≤ s.cap then do
    let s2 ← VS.on (s.slice 0 total)
    let d ← VS.on (s2.slice (addInt w i x.len) s2.len)
    let t ← VS.on (s.slice i s.len)
    VS.on (d.copy t)
    let d ← VS.on (s2.slice i s2.len)
    VS.on (d.copy x)
    VS.assign s2
  else do
    let s2 ← VS.on (Sl.make total total)
    let t ← VS.on (s.slice 0 i)
    VS.on (s2.copy t)
    let d ← VS.on (s2.slice i s2.len)
    VS.on (d.copy x)
    let d ← VS.on (s2.slice (addInt w i x.len) s2.len)
    let t ← VS.on (s.slice i s.len)
    VS.on (d.copy t)
    VS.assign s2

/-- `Remove`, `/repo/vector.go:149-151`. -/
def Vec.removeInt [GoZero T] (w : Nat) (grow : Nat → Nat → Nat) (i : Int) : GoM (VS T) Unit := Vec.removeRange grow i (addInt w i 1)

/-- `RemoveLength`, `/repo/vector.go:161-163`. -/
def Vec.removeLengthInt [GoZero T] (w : Nat) (grow : Nat → Nat → Nat) (i len : Int) : GoM (VS T) Unit := Vec.removeRange grow i (addInt w i len)

end Stl4go
