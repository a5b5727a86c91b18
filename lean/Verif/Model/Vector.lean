import Verif.Model.Transform
/-!
# Model of `/repo/vector.go`

The state of a method is the memory and the variable `*v`, a slice header, because some methods assign `*v` before they may panic.
Integers are unbounded: `i+1`, `i+len` and `i+len(x)` do not wrap. A sum that wraps in Go is negative there and beyond every length
here, and both panic in the same slice expression. `grow` is the capacity the runtime chooses when `append` needs a new array. Callbacks
have a state `σ` of their own; callbacks that use the vector they are run on, or panic, are in `Model/Callback.lean`.
-/
namespace Stl4go
variable {T σ : Type}

/-- Memory and receiver, a variable of the type `Vector`, `/repo/vector.go:7`. -/
structure VS (T : Type) where
  mem : Mem T
  v : Sl

/-- An expression or statement that does not assign to `*v`, for example `/repo/vector.go:48`. -/
def VS.on {α : Type} (x : GoM (Mem T) α) : GoM (VS T) α := fun s =>
  match x s.mem with
  | .ok a m => .ok a { s with mem := m }
  | .panic m => .panic { s with mem := m }
  | .diverge => .diverge

/-- `*v`, for example `/repo/vector.go:155`. -/
def VS.recv : GoM (VS T) Sl := fun s => .ok s.v s

/-- Assignment to `*v`, for example `/repo/vector.go:49`. -/
def VS.assign (v : Sl) : GoM (VS T) Unit := fun s => .ok () { s with v := v }

/-- `MakeVector`, `/repo/vector.go:10-12`, assigned to the receiver. -/
def Vec.make : GoM (VS T) Unit := VS.assign Sl.empty

/-- `MakeVectorCap`, `/repo/vector.go:15-18`, assigned to the receiver. -/
def Vec.makeCap [GoZero T] (c : Int) : GoM (VS T) Unit := do
  let v ← VS.on (Sl.make 0 c)
  VS.assign v

/-- `VectorOf`, `/repo/vector.go:21-23`, called with single values and assigned to the receiver. -/
def Vec.of (xs : List T) : GoM (VS T) Unit := do
  let v ← VS.on (Sl.lit xs)
  VS.assign v

/-- `AsVector`, `/repo/vector.go:26-28`, assigned to the receiver; also `VectorOf(s...)`. -/
def Vec.as (s : Sl) : GoM (VS T) Unit := VS.assign s

/-- `IsEmpty`, `/repo/vector.go:31-33`. -/
def Vec.isEmpty : GoM (VS T) Bool := do
  let v ← VS.recv
  return v.len == 0

/-- `Len`, `/repo/vector.go:36-38`. -/
def Vec.len : GoM (VS T) Int := do
  let v ← VS.recv
  return v.len

/-- `Cap`, `/repo/vector.go:41-43`. -/
def Vec.cap : GoM (VS T) Int := do
  let v ← VS.recv
  return v.cap

/-- `Clear`, `/repo/vector.go:47-50`. -/
def Vec.clear [GoZero T] : GoM (VS T) Unit := do
  let v ← VS.recv
  VS.on (fillZero v)
  let t ← VS.on (v.slice 0 0)
  VS.assign t

/-- `Reserve`, `/repo/vector.go:58-64`. -/
def Vec.reserve [GoZero T] (l : Int) : GoM (VS T) Unit := do
  let v ← VS.recv
  if v.cap < l then do
    let t ← VS.on (Sl.make v.len l)
    VS.on (t.copy v)
    VS.assign t
  else pure ()

/-- `Shrink`, `/repo/vector.go:67-71`. -/
def Vec.shrink [GoZero T] (grow : Nat → Nat → Nat) : GoM (VS T) Unit := do
  let v ← VS.recv
  if v.cap > v.len then do
    let ys ← VS.on v.load
    let t ← VS.on (Sl.empty.append grow ys)
    VS.assign t
  else pure ()

/-- `At`, `/repo/vector.go:75-77`. -/
def Vec.at (i : Int) : GoM (VS T) T := do
  let v ← VS.recv
  VS.on (v.get i)

/-- `Set`, `/repo/vector.go:81-83`. -/
def Vec.set (i : Int) (x : T) : GoM (VS T) Unit := do
  let v ← VS.recv
  VS.on (v.put i x)

/-- `PushBack`, `/repo/vector.go:88-90`. -/
def Vec.pushBack [GoZero T] (grow : Nat → Nat → Nat) (x : T) : GoM (VS T) Unit := do
  let v ← VS.recv
  let t ← VS.on (v.append grow [x])
  VS.assign t

/-- `PopBack`, `/repo/vector.go:95-101`. -/
def Vec.popBack [GoZero T] : GoM (VS T) T := do
  let v ← VS.recv
  let e ← VS.on (v.get (v.len - 1))
  VS.on (v.put (v.len - 1) GoZero.zero)
  let t ← VS.on (v.slice 0 (v.len - 1))
  VS.assign t
  return e

/-- `TryPopBack`, `/repo/vector.go:104-110`. -/
def Vec.tryPopBack [GoZero T] : GoM (VS T) (T × Bool) := do
  let b ← Vec.isEmpty
  if b = true then pure (GoZero.zero, false)
  else do
    let e ← Vec.popBack
    return (e, true)

/-- `Back`, `/repo/vector.go:115-117`. -/
def Vec.back : GoM (VS T) T := do
  let v ← VS.recv
  VS.on (v.get (v.len - 1))

/-- `Append`, `/repo/vector.go:120-122`, for the argument slice `x`. -/
def Vec.append [GoZero T] (grow : Nat → Nat → Nat) (x : Sl) : GoM (VS T) Unit := do
  let v ← VS.recv
  let ys ← VS.on x.load
  let t ← VS.on (v.append grow ys)
  VS.assign t

/-- `Insert`, `/repo/vector.go:129-144`, for the argument slice `x`. -/
def Vec.insert [GoZero T] (i : Int) (x : Sl) : GoM (VS T) Unit := do
  let s ← VS.recv
  let total := s.len + x.len
  if total ≤ s.cap then do
    let s2 ← VS.on (s.slice 0 total)
    let d ← VS.on (s2.slice (i + x.len) s2.len)
    let t ← VS.on (s.slice i s.len)
    VS.on (d.copy t)
    let d ← VS.on (s2.slice i s2.len)
    VS.on (d.copy x)
    VS.assign s2
  else do
    let s2 ← VS.on (Sl.make total total)
    let t ← VS.on (s.slice 0 i)
    VS.on (s2.copy t)
    let d ← VS.on (s2.slice i s2.len)
    VS.on (d.copy x)
    let d ← VS.on (s2.slice (i + x.len) s2.len)
    let t ← VS.on (s.slice i s.len)
    VS.on (d.copy t)
    VS.assign s2

/-- `RemoveRange`, `/repo/vector.go:154-158`. -/
def Vec.removeRange [GoZero T] (grow : Nat → Nat → Nat) (i j : Int) : GoM (VS T) Unit := do
  let oldV ← VS.recv
  let a ← VS.on (oldV.slice 0 i)
  let b ← VS.on (oldV.slice j oldV.len)
  let ys ← VS.on b.load
  let t ← VS.on (a.append grow ys)
  VS.assign t
  let rest ← VS.on (oldV.slice t.len oldV.len)
  VS.on (fillZero rest)

/-- `Remove`, `/repo/vector.go:149-151`. -/
def Vec.remove [GoZero T] (grow : Nat → Nat → Nat) (i : Int) : GoM (VS T) Unit := Vec.removeRange grow i (i + 1)

/-- `RemoveLength`, `/repo/vector.go:161-163`. -/
def Vec.removeLength [GoZero T] (grow : Nat → Nat → Nat) (i len : Int) : GoM (VS T) Unit := Vec.removeRange grow i (i + len)

/-- `RemoveIf`, `/repo/vector.go:166-170`. -/
def Vec.removeIf [GoZero T] (cond : σ → T → σ × Bool) (t : σ) : GoM (VS T) σ := do
  let oldV ← VS.recv
  let r ← VS.on (Stl4go.removeIf oldV cond t)
  VS.assign r.2
  let rest ← VS.on (oldV.slice r.2.len oldV.len)
  VS.on (fillZero rest)
  return r.1

/-- Loop of `ForEach`, `/repo/vector.go:174-176`. -/
def Vec.forEachLoop (v : Sl) (cb : σ → T → σ) : (n i : Nat) → σ → GoM (Mem T) σ
  | 0, _, t => pure t
  | n + 1, i, t => do
    let e ← v.get i
    Vec.forEachLoop v cb n (i + 1) (cb t e)

/-- `ForEach`, `/repo/vector.go:173-177`. -/
def Vec.forEach (cb : σ → T → σ) (t : σ) : GoM (VS T) σ := do
  let v ← VS.recv
  VS.on (Vec.forEachLoop v cb v.len 0 t)

/-- Loop of `ForEachIf`, `/repo/vector.go:182-186`. -/
def Vec.forEachIfLoop (v : Sl) (cb : σ → T → σ × Bool) : (n i : Nat) → σ → GoM (Mem T) σ
  | 0, _, t => pure t
  | n + 1, i, t => do
    let e ← v.get i
    if (cb t e).2 = false then pure (cb t e).1
    else Vec.forEachIfLoop v cb n (i + 1) (cb t e).1

/-- `ForEachIf`, `/repo/vector.go:181-187`. -/
def Vec.forEachIf (cb : σ → T → σ × Bool) (t : σ) : GoM (VS T) σ := do
  let v ← VS.recv
  VS.on (Vec.forEachIfLoop v cb v.len 0 t)

/-- Loop of `ForEachMutable`, `/repo/vector.go:191-193`: the callback gets a pointer to the element and leaves a value there. -/
def Vec.forEachMutableLoop (v : Sl) (cb : σ → T → σ × T) : (n i : Nat) → σ → GoM (Mem T) σ
  | 0, _, t => pure t
  | n + 1, i, t => do
    let e ← v.get i
    v.put i (cb t e).2
    Vec.forEachMutableLoop v cb n (i + 1) (cb t e).1

/-- `ForEachMutable`, `/repo/vector.go:190-194`. -/
def Vec.forEachMutable (cb : σ → T → σ × T) (t : σ) : GoM (VS T) σ := do
  let v ← VS.recv
  VS.on (Vec.forEachMutableLoop v cb v.len 0 t)

/-- Loop of `ForEachMutableIf`, `/repo/vector.go:199-203`. -/
def Vec.forEachMutableIfLoop (v : Sl) (cb : σ → T → σ × T × Bool) : (n i : Nat) → σ → GoM (Mem T) σ
  | 0, _, t => pure t
  | n + 1, i, t => do
    let e ← v.get i
    v.put i (cb t e).2.1
    if (cb t e).2.2 = false then pure (cb t e).1
    else Vec.forEachMutableIfLoop v cb n (i + 1) (cb t e).1

/-- `ForEachMutableIf`, `/repo/vector.go:198-204`. -/
def Vec.forEachMutableIf (cb : σ → T → σ × T × Bool) (t : σ) : GoM (VS T) σ := do
  let v ← VS.recv
  VS.on (Vec.forEachMutableIfLoop v cb v.len 0 t)

/-- `vectorIterator`, `/repo/vector.go:216-219`. -/
structure VIter where
  v : Sl
  i : Int
deriving DecidableEq, Repr

/-- `Iterate`, `/repo/vector.go:207-209`. -/
def Vec.iterate : GoM (VS T) VIter := do
  let v ← VS.recv
  return { v := v, i := 0 }

/-- `IterateRange`, `/repo/vector.go:212-214`. -/
def Vec.iterateRange (i j : Int) : GoM (VS T) VIter := do
  let v ← VS.recv
  let w ← VS.on (v.slice i j)
  return { v := w, i := 0 }

/-- `Value`, `/repo/vector.go:221-223`. -/
def VIter.value (it : VIter) : GoM (Mem T) T := it.v.get it.i

/-- Assignment through `Pointer`, `/repo/vector.go:225-227`. -/
def VIter.store (it : VIter) (x : T) : GoM (Mem T) Unit := it.v.put it.i x

/-- `IsNotEnd`, `/repo/vector.go:229-231`. -/
def VIter.isNotEnd (it : VIter) : Bool := decide (it.i < it.v.len)

/-- `MoveToNext`, `/repo/vector.go:233-235`. -/
def VIter.moveToNext (it : VIter) : VIter := { it with i := it.i + 1 }

/-- A client loop `for ; it.IsNotEnd(); it.MoveToNext()` collecting the values (`/repo/vector.go:221-235`). -/
def VIter.collect : (fuel : Nat) → VIter → GoM (Mem T) (List T)
  | 0, _ => GoM.diverge
  | fuel + 1, it =>
    if it.isNotEnd = true then do
      let x ← it.value
      let rest ← VIter.collect fuel it.moveToNext
      return x :: rest
    else pure []

/-- A client loop that applies `f` to each element through the pointer (`/repo/vector.go:225-235`). -/
def VIter.update (f : T → T) : (fuel : Nat) → VIter → GoM (Mem T) Unit
  | 0, _ => GoM.diverge
  | fuel + 1, it =>
    if it.isNotEnd = true then do
      let x ← it.value
      it.store (f x)
      VIter.update f fuel it.moveToNext
    else pure ()

end Stl4go
