import Verif.Model.Slice
/-!
# Model of `/repo/transform.go`

Callbacks have a state `σ` of their own; callbacks that write the slices they are run on, or panic, are in `Model/Callback.lean`. A `range` loop over a
slice evaluates the slice once and reads element `i` when it comes to it; its counter needs no fuel because the length is fixed.
`grow` is the capacity the runtime chooses when `append` needs a new array.
-/
namespace Stl4go
variable {T R σ : Type}

/-- `Copy`, `/repo/transform.go:8-10`. -/
def copySlice [GoZero T] (grow : Nat → Nat → Nat) (a : Sl) : GoM (Mem T) Sl := do
  let ys ← a.load
  Sl.empty.append grow ys

/-- `CopyTo`, `/repo/transform.go:16-19`. -/
def copyTo [GoZero T] (grow : Nat → Nat → Nat) (a to : Sl) : GoM (Mem T) Sl := do
  let t ← to.slice 0 0
  let ys ← a.load
  t.append grow ys

/-- Loop of `Fill` and of `FillPattern`, `/repo/transform.go:34-36` and `/repo/transform.go:50-52`; `j *= 2` wraps at 64 bits. -/
def fillLoop (a : Sl) : (fuel : Nat) → (j : Int) → GoM (Mem T) Unit
  | 0, _ => GoM.diverge
  | fuel + 1, j =>
    if j < a.len then do
      let d ← a.slice j a.len
      let s ← a.slice 0 j
      d.copy s
      fillLoop a fuel (wrap64 (j * 2))
    else pure ()

/-- `Fill`, `/repo/transform.go:24-37`. -/
def fill (a : Sl) (v : T) : GoM (Mem T) Unit :=
  if a.len = 0 then pure ()
  else do
    a.put 0 v
    fillLoop a (a.len + 1) 1

/-- `FillPattern`, `/repo/transform.go:42-53`. -/
def fillPattern (a pattern : Sl) : GoM (Mem T) Unit :=
  if pattern.len = 0 then GoM.panic
  else do
    a.copy pattern
    fillLoop a (a.len + 1) pattern.len

/-- `FillZero` from go1.21 on, `/repo/transform_fillzero_clear.go:9-11`. -/
def fillZero [GoZero T] (a : Sl) : GoM (Mem T) Unit := a.clear

/-- `FillZero` before go1.21, `/repo/transform_fillzero_old.go:9-12`. -/
def fillZeroOld [GoZero T] (a : Sl) : GoM (Mem T) Unit := fill a GoZero.zero

/-- Loop of `TransformTo`, `/repo/transform.go:62-64`. `rd i` reads `a[i]`: from the same memory when `R` and `T` are the same type (the
slices may then overlap), from a memory that cannot change when they are not. -/
def transformToLoop [GoZero R] (grow : Nat → Nat → Nat) (rd : Nat → GoM (Mem R) T) (op : σ → T → σ × R) :
    (n i : Nat) → σ → Sl → GoM (Mem R) (σ × Sl)
  | 0, _, t, b => pure (t, b)
  | n + 1, i, t, b => do
    let v ← rd i
    let r := op t v
    let b ← b.append grow [r.2]
    transformToLoop grow rd op n (i + 1) r.1 b

/-- `TransformTo`, `/repo/transform.go:60-66`, for `R` the type `T`. -/
def transformTo [GoZero T] (grow : Nat → Nat → Nat) (a : Sl) (op : σ → T → σ × T) (t : σ) (b : Sl) : GoM (Mem T) (σ × Sl) := do
  let b ← b.slice 0 0
  transformToLoop grow (fun i => a.get i) op a.len 0 t b

/-- Reading element `i` of a slice with contents `xs` that lives in another memory (`/repo/transform.go:63`). -/
def readOther (xs : List T) (i : Nat) : GoM (Mem R) T := fun m =>
  match xs[i]? with
  | some v => .ok v m
  | none => .panic m

/-- `TransformTo`, `/repo/transform.go:60-66`, for different types; `xs` are the elements of `a`. -/
def transformToOther [GoZero R] (grow : Nat → Nat → Nat) (xs : List T) (op : σ → T → σ × R) (t : σ) (b : Sl) : GoM (Mem R) (σ × Sl) := do
  let b ← b.slice 0 0
  transformToLoop grow (readOther xs) op xs.length 0 t b

/-- Loop of `Transform`, `/repo/transform.go:72-74`. -/
def transformLoop (a : Sl) (op : σ → T → σ × T) : (n i : Nat) → σ → GoM (Mem T) σ
  | 0, _, t => pure t
  | n + 1, i, t => do
    let v ← a.get i
    let r := op t v
    a.put i r.2
    transformLoop a op n (i + 1) r.1

/-- `Transform`, `/repo/transform.go:71-75`. -/
def transform (a : Sl) (op : σ → T → σ × T) (t : σ) : GoM (Mem T) σ := transformLoop a op a.len 0 t

/-- Loop of `TransformCopy`, `/repo/transform.go:82-84`; `rd` as in `transformToLoop`. -/
def transformCopyLoop (rd : Nat → GoM (Mem R) T) (op : σ → T → σ × R) (r : Sl) : (n i : Nat) → σ → GoM (Mem R) σ
  | 0, _, t => pure t
  | n + 1, i, t => do
    let v ← rd i
    let x := op t v
    r.put i x.2
    transformCopyLoop rd op r n (i + 1) x.1

/-- `TransformCopy`, `/repo/transform.go:80-86`, for `R` the type `T`. -/
def transformCopy [GoZero T] (a : Sl) (op : σ → T → σ × T) (t : σ) : GoM (Mem T) (σ × Sl) := do
  let r ← Sl.make a.len a.len
  let t ← transformCopyLoop (fun i => a.get i) op r a.len 0 t
  return (t, r)

/-- `TransformCopy`, `/repo/transform.go:80-86`, for different types; `xs` are the elements of `a`. -/
def transformCopyOther [GoZero R] (xs : List T) (op : σ → T → σ × R) (t : σ) : GoM (Mem R) (σ × Sl) := do
  let r ← Sl.make xs.length xs.length
  let t ← transformCopyLoop (readOther xs) op r xs.length 0 t
  return (t, r)

/-- Loop of `Replace`, `/repo/transform.go:92-96`. -/
def replaceLoop [GoEq T] (a : Sl) (old new : T) : (n i : Nat) → GoM (Mem T) Unit
  | 0, _ => pure ()
  | n + 1, i => do
    let v ← a.get i
    if GoEq.eq v old = true then do
      a.put i new
      replaceLoop a old new n (i + 1)
    else replaceLoop a old new n (i + 1)

/-- `Replace`, `/repo/transform.go:91-97`. -/
def replace [GoEq T] (a : Sl) (old new : T) : GoM (Mem T) Unit := replaceLoop a old new a.len 0

/-- Loop of `ReplaceIf`, `/repo/transform.go:103-107`. -/
def replaceIfLoop (a : Sl) (pred : σ → T → σ × Bool) (new : T) : (n i : Nat) → σ → GoM (Mem T) σ
  | 0, _, t => pure t
  | n + 1, i, t => do
    let v ← a.get i
    let r := pred t v
    if r.2 = true then do
      a.put i new
      replaceIfLoop a pred new n (i + 1) r.1
    else replaceIfLoop a pred new n (i + 1) r.1

/-- `ReplaceIf`, `/repo/transform.go:102-108`. -/
def replaceIf (a : Sl) (pred : σ → T → σ × Bool) (new : T) (t : σ) : GoM (Mem T) σ := replaceIfLoop a pred new a.len 0 t

/-- Loop of `Unique`, `/repo/transform.go:120-126`: `b` is `a[1:]`, `k` the position in it; returns the final `i`. -/
def uniqueLoop [GoEq T] (a b : Sl) : (n k i : Nat) → (prev : T) → GoM (Mem T) Nat
  | 0, _, i, _ => pure i
  | n + 1, k, i, prev => do
    let v ← b.get k
    if GoEq.eq v prev = false then do
      a.put i v
      uniqueLoop a b n (k + 1) (i + 1) v
    else uniqueLoop a b n (k + 1) i prev

/-- `Unique`, `/repo/transform.go:114-128`. -/
def unique [GoEq T] (a : Sl) : GoM (Mem T) Sl :=
  if a.len = 0 then pure a
  else do
    let prev ← a.get 0
    let b ← a.slice 1 a.len
    let i ← uniqueLoop a b b.len 0 1 prev
    a.slice 0 i

/-- Loop of `UniqueCopy`, `/repo/transform.go:140-145`. -/
def uniqueCopyLoop [GoEq T] [GoZero T] (grow : Nat → Nat → Nat) (a : Sl) : (n k : Nat) → Sl → GoM (Mem T) Sl
  | 0, _, r => pure r
  | n + 1, k, r => do
    let v ← a.get k
    if r.len > 0 then do
      let l ← r.get (r.len - 1)
      if GoEq.eq l v = true then uniqueCopyLoop grow a n (k + 1) r
      else do
        let r ← r.append grow [v]
        uniqueCopyLoop grow a n (k + 1) r
    else do
      let r ← r.append grow [v]
      uniqueCopyLoop grow a n (k + 1) r

/-- `UniqueCopy`, `/repo/transform.go:134-148`. -/
def uniqueCopy [GoEq T] [GoZero T] (grow : Nat → Nat → Nat) (a : Sl) : GoM (Mem T) Sl :=
  if a.len = 0 then pure Sl.empty
  else uniqueCopyLoop grow a a.len 0 Sl.empty

/-- Loop of `Remove`, `/repo/transform.go:156-161`; returns the final `j`. -/
def removeLoop [GoEq T] (a : Sl) (x : T) : (n k j : Nat) → GoM (Mem T) Nat
  | 0, _, j => pure j
  | n + 1, k, j => do
    let v ← a.get k
    if GoEq.eq v x = false then do
      a.put j v
      removeLoop a x n (k + 1) (j + 1)
    else removeLoop a x n (k + 1) j

/-- `Remove`, `/repo/transform.go:154-163`. -/
def remove [GoEq T] (a : Sl) (x : T) : GoM (Mem T) Sl := do
  let j ← removeLoop a x a.len 0 0
  a.slice 0 j

/-- Loop of `RemoveCopy`, `/repo/transform.go:171-175`. -/
def removeCopyLoop [GoEq T] [GoZero T] (grow : Nat → Nat → Nat) (a : Sl) (x : T) : (n k : Nat) → Sl → GoM (Mem T) Sl
  | 0, _, r => pure r
  | n + 1, k, r => do
    let v ← a.get k
    if GoEq.eq v x = false then do
      let r ← r.append grow [v]
      removeCopyLoop grow a x n (k + 1) r
    else removeCopyLoop grow a x n (k + 1) r

/-- `RemoveCopy`, `/repo/transform.go:169-177`. -/
def removeCopy [GoEq T] [GoZero T] (grow : Nat → Nat → Nat) (a : Sl) (x : T) : GoM (Mem T) Sl := do
  let r ← Sl.make 0 a.len
  removeCopyLoop grow a x a.len 0 r

/-- Loop of `RemoveIf`, `/repo/transform.go:185-190`. -/
def removeIfLoop (a : Sl) (cond : σ → T → σ × Bool) : (n k j : Nat) → σ → GoM (Mem T) (σ × Nat)
  | 0, _, j, t => pure (t, j)
  | n + 1, k, j, t => do
    let v ← a.get k
    let c := cond t v
    if c.2 = false then do
      a.put j v
      removeIfLoop a cond n (k + 1) (j + 1) c.1
    else removeIfLoop a cond n (k + 1) j c.1

/-- `RemoveIf`, `/repo/transform.go:183-192`. -/
def removeIf (a : Sl) (cond : σ → T → σ × Bool) (t : σ) : GoM (Mem T) (σ × Sl) := do
  let r ← removeIfLoop a cond a.len 0 0 t
  let s ← a.slice 0 r.2
  return (r.1, s)

/-- Loop of `RemoveIfCopy`, `/repo/transform.go:200-204`. -/
def removeIfCopyLoop [GoZero T] (grow : Nat → Nat → Nat) (a : Sl) (cond : σ → T → σ × Bool) : (n k : Nat) → σ → Sl → GoM (Mem T) (σ × Sl)
  | 0, _, t, r => pure (t, r)
  | n + 1, k, t, r => do
    let v ← a.get k
    let c := cond t v
    if c.2 = false then do
      let r ← r.append grow [v]
      removeIfCopyLoop grow a cond n (k + 1) c.1 r
    else removeIfCopyLoop grow a cond n (k + 1) c.1 r

/-- `RemoveIfCopy`, `/repo/transform.go:198-206`. -/
def removeIfCopy [GoZero T] (grow : Nat → Nat → Nat) (a : Sl) (cond : σ → T → σ × Bool) (t : σ) : GoM (Mem T) (σ × Sl) := do
  let r ← Sl.make 0 a.len
  removeIfCopyLoop grow a cond a.len 0 t r

/-- The swap `a[i], a[j] = a[j], a[i]`, `/repo/transform.go:213` and `/repo/transform.go:222`. -/
def swapAt (a : Sl) (i j : Int) : GoM (Mem T) Unit := do
  let y ← a.get j
  let x ← a.get i
  a.put i y
  a.put j x

/-- `Shuffle`, `/repo/transform.go:211-215`: `rand.Shuffle(n, swap)` calls `swap(i, j)` for pairs it draws, here any list of pairs. -/
def shuffle (a : Sl) : (draws : List (Nat × Nat)) → GoM (Mem T) Unit
  | [] => pure ()
  | (i, j) :: draws => do
    swapAt a i j
    shuffle a draws

/-- Loop of `Reverse`, `/repo/transform.go:221-223`. -/
def reverseLoop (a : Sl) : (fuel : Nat) → (i j : Int) → GoM (Mem T) Unit
  | 0, _, _ => GoM.diverge
  | fuel + 1, i, j =>
    if i < j then do
      swapAt a i j
      reverseLoop a fuel (i + 1) (j - 1)
    else pure ()

/-- `Reverse`, `/repo/transform.go:220-224`. -/
def reverse (a : Sl) : GoM (Mem T) Unit := reverseLoop a (a.len + 1) 0 (a.len - 1)

/-- Loop of `ReverseCopy`, `/repo/transform.go:231-233`: `n` is `i + 1`. -/
def reverseCopyLoop [GoZero T] (grow : Nat → Nat → Nat) (a : Sl) : (n : Nat) → Sl → GoM (Mem T) Sl
  | 0, b => pure b
  | i + 1, b => do
    let v ← a.get i
    let b ← b.append grow [v]
    reverseCopyLoop grow a i b

/-- `ReverseCopy`, `/repo/transform.go:229-235`. -/
def reverseCopy [GoZero T] (grow : Nat → Nat → Nat) (a : Sl) : GoM (Mem T) Sl := do
  let b ← Sl.make 0 a.len
  reverseCopyLoop grow a a.len b

end Stl4go
