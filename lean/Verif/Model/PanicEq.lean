import Verif.Model.Slice
/-!
# Functions for `comparable` element types whose `==` can panic

Since Go 1.20 a caller may use an interface type where `comparable` is asked for (`Find[any]`). Comparing two interface values with the same
dynamic type panics if that type is not comparable, for example two `[]int`. Here `==` is any function that gives an answer or panics. The
functions are those of `Model/Compare`, `Model/Compute`, `Model/Lookup` and `Model/Transform` with this `==`.
-/
namespace Stl4go
variable {T : Type}

/-- Go's `==` (`/repo/compare.go:12`) on a type whose values may hold interfaces: `none` is a run-time panic. -/
class GoEqP (T : Type) where
  eq : T → T → Option Bool

/-- The expression `x == y` (`/repo/compare.go:12`). -/
def eqM [GoEqP T] (x y : T) : GoM (Mem T) Bool := fun m =>
  match GoEqP.eq x y with
  | some b => .ok b m
  | none => .panic m

/-- Loop of `Equal`, `/repo/compare.go:11-15`. -/
def equalPLoop [GoEqP T] (a b : Sl) : (n i : Nat) → GoM (Mem T) Bool
  | 0, _ => pure true
  | n + 1, i => do
    let x ← a.get i
    let y ← b.get i
    let e ← eqM x y
    if e = false then pure false
    else equalPLoop a b n (i + 1)

/-- `Equal`, `/repo/compare.go:7-17`. -/
def equalP [GoEqP T] (a b : Sl) : GoM (Mem T) Bool :=
  if a.len ≠ b.len then pure false
  else equalPLoop a b a.len 0

/-- Loop of `Count`, `/repo/compute.go:61-65`. -/
def countPLoop [GoEqP T] (a : Sl) (x : T) : (n i c : Nat) → GoM (Mem T) Nat
  | 0, _, c => pure c
  | n + 1, i, c => do
    let v ← a.get i
    let e ← eqM v x
    if e = true then countPLoop a x n (i + 1) (c + 1)
    else countPLoop a x n (i + 1) c

/-- `Count`, `/repo/compute.go:59-67`. -/
def countP [GoEqP T] (a : Sl) (x : T) : GoM (Mem T) Nat := countPLoop a x a.len 0 0

/-- Loop of `Find`, `/repo/lookup.go:91-96`. -/
def findPLoop [GoEqP T] (a : Sl) (x : T) : (n i : Nat) → GoM (Mem T) (Int × Bool)
  | 0, _ => pure (-1, false)
  | n + 1, i => do
    let v ← a.get i
    let e ← eqM v x
    if e = true then pure ((i : Int), true)
    else findPLoop a x n (i + 1)

/-- `Find`, `/repo/lookup.go:90-97`. -/
def findP [GoEqP T] (a : Sl) (x : T) : GoM (Mem T) (Int × Bool) := findPLoop a x a.len 0

/-- Loop of `Index`, `/repo/lookup.go:119-124`. -/
def indexPLoop [GoEqP T] (a : Sl) (x : T) : (n i : Nat) → GoM (Mem T) Int
  | 0, _ => pure (-1)
  | n + 1, i => do
    let v ← a.get i
    let e ← eqM v x
    if e = true then pure (i : Int)
    else indexPLoop a x n (i + 1)

/-- `Index`, `/repo/lookup.go:118-125`. -/
def indexP [GoEqP T] (a : Sl) (x : T) : GoM (Mem T) Int := indexPLoop a x a.len 0

/-- Loop of `Replace`, `/repo/transform.go:92-96`. -/
def replacePLoop [GoEqP T] (a : Sl) (old new : T) : (n i : Nat) → GoM (Mem T) Unit
  | 0, _ => pure ()
  | n + 1, i => do
    let v ← a.get i
    let e ← eqM v old
    if e = true then do
      a.put i new
      replacePLoop a old new n (i + 1)
    else replacePLoop a old new n (i + 1)

/-- `Replace`, `/repo/transform.go:91-97`. -/
def replaceP [GoEqP T] (a : Sl) (old new : T) : GoM (Mem T) Unit := replacePLoop a old new a.len 0

/-- Loop of `Unique`, `/repo/transform.go:120-126`; `b` is `a[1:]`. -/
def uniquePLoop [GoEqP T] (a b : Sl) : (n k i : Nat) → (prev : T) → GoM (Mem T) Nat
  | 0, _, i, _ => pure i
  | n + 1, k, i, prev => do
    let v ← b.get k
    let e ← eqM v prev
    if e = false then do
      a.put i v
      uniquePLoop a b n (k + 1) (i + 1) v
    else uniquePLoop a b n (k + 1) i prev

/-- `Unique`, `/repo/transform.go:114-128`. -/
def uniqueP [GoEqP T] (a : Sl) : GoM (Mem T) Sl :=
  if a.len = 0 then pure a
  else do
    let prev ← a.get 0
    let b ← a.slice 1 a.len
    let i ← uniquePLoop a b b.len 0 1 prev
    a.slice 0 i

/-- Loop of `UniqueCopy`, `/repo/transform.go:140-145`. -/
def uniqueCopyPLoop [GoEqP T] [GoZero T] (grow : Nat → Nat → Nat) (a : Sl) : (n k : Nat) → Sl → GoM (Mem T) Sl
  | 0, _, r => pure r
  | n + 1, k, r => do
    let v ← a.get k
    if r.len > 0 then do
      let l ← r.get (r.len - 1)
      let e ← eqM l v
      if e = true then uniqueCopyPLoop grow a n (k + 1) r
      else do
        let r ← r.append grow [v]
        uniqueCopyPLoop grow a n (k + 1) r
    else do
      let r ← r.append grow [v]
      uniqueCopyPLoop grow a n (k + 1) r

/-- `UniqueCopy`, `/repo/transform.go:134-148`. -/
def uniqueCopyP [GoEqP T] [GoZero T] (grow : Nat → Nat → Nat) (a : Sl) : GoM (Mem T) Sl :=
  if a.len = 0 then pure Sl.empty
  else uniqueCopyPLoop grow a a.len 0 Sl.empty

/-- Loop of `Remove`, `/repo/transform.go:156-161`; returns the final `j`. -/
def removePLoop [GoEqP T] (a : Sl) (x : T) : (n k j : Nat) → GoM (Mem T) Nat
  | 0, _, j => pure j
  | n + 1, k, j => do
    let v ← a.get k
    let e ← eqM v x
    if e = false then do
      a.put j v
      removePLoop a x n (k + 1) (j + 1)
    else removePLoop a x n (k + 1) j

/-- `Remove`, `/repo/transform.go:154-163`. -/
def removeP [GoEqP T] (a : Sl) (x : T) : GoM (Mem T) Sl := do
  let j ← removePLoop a x a.len 0 0
  a.slice 0 j

/-- Loop of `RemoveCopy`, `/repo/transform.go:171-175`. -/
def removeCopyPLoop [GoEqP T] [GoZero T] (grow : Nat → Nat → Nat) (a : Sl) (x : T) : (n k : Nat) → Sl → GoM (Mem T) Sl
  | 0, _, r => pure r
  | n + 1, k, r => do
    let v ← a.get k
    let e ← eqM v x
    if e = false then do
      let r ← r.append grow [v]
      removeCopyPLoop grow a x n (k + 1) r
    else removeCopyPLoop grow a x n (k + 1) r

/-- `RemoveCopy`, `/repo/transform.go:169-177`. -/
def removeCopyP [GoEqP T] [GoZero T] (grow : Nat → Nat → Nat) (a : Sl) (x : T) : GoM (Mem T) Sl := do
  let r ← Sl.make 0 a.len
  removeCopyPLoop grow a x a.len 0 r

end Stl4go
