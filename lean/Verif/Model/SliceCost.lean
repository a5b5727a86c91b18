import Verif.Model.Vector
/-!
# The slice functions and the methods of Vector, with element accesses counted

The state is paired with a counter. A read or a write of an element counts one, also where a built-in function does it: `copy` reads and writes what it copies, `append` writes the new
elements and, if it needs a new array, reads all old ones and writes all cells of the array; `make` writes all cells of the array. Comparing two elements, calling a callback and
taking a slice of a slice count nothing. Each function is that of `Model/Transform.lean` or `Model/Vector.lean`, line by line, over the counting primitives.
-/
namespace Stl4go
variable {T R S σ α : Type}

/-- Do `x` (for example `/repo/vector.go:82`) and count `k` accesses. -/
def GoM.count (k : S → Nat) (x : GoM S α) : GoM (S × Nat) α := fun s =>
  match x s.1 with
  | .ok a s' => .ok a (s', s.2 + k s.1)
  | .panic s' => .panic (s', s.2)
  | .diverge => .diverge

/-- `s[i]` (`/repo/vector.go:76`). -/
def Sl.getAcc (s : Sl) (i : Int) : GoM (Mem T × Nat) T := GoM.count (fun _ => 1) (s.get i)

/-- `s[i] = v` (`/repo/vector.go:82`). -/
def Sl.putAcc (s : Sl) (i : Int) (v : T) : GoM (Mem T × Nat) Unit := GoM.count (fun _ => 1) (s.put i v)

/-- `s[lo:hi]` (`/repo/vector.go:156`). -/
def Sl.sliceAcc (s : Sl) (lo hi : Int) : GoM (Mem T × Nat) Sl := GoM.count (fun _ => 0) (s.slice lo hi)

/-- The operand `x...` of `append` (`/repo/vector.go:121`). -/
def Sl.loadAcc (s : Sl) : GoM (Mem T × Nat) (List T) := GoM.count (fun _ => s.len) s.load

/-- `copy(dst, src)` (`/repo/vector.go:134`). -/
def Sl.copyAcc (dst src : Sl) : GoM (Mem T × Nat) Unit := GoM.count (fun _ => 2 * min dst.len src.len) (dst.copy src)

/-- `make([]T, n, c)` (`/repo/vector.go:60`). -/
def Sl.makeAcc [GoZero T] (n c : Int) : GoM (Mem T × Nat) Sl := GoM.count (fun _ => c.toNat) (Sl.make n c)

/-- `append(s, ys...)` (`/repo/vector.go:89`). -/
def Sl.appendAcc [GoZero T] (grow : Nat → Nat → Nat) (s : Sl) (ys : List T) : GoM (Mem T × Nat) Sl :=
  GoM.count (fun _ => if s.len + ys.length ≤ s.cap then ys.length else s.len + max (s.len + ys.length) (grow s.cap (s.len + ys.length))) (s.append grow ys)

/-- `clear(s)` (`/repo/transform_fillzero_clear.go:10`). -/
def Sl.clearAcc [GoZero T] (s : Sl) : GoM (Mem T × Nat) Unit := GoM.count (fun _ => s.len) s.clear

/-- `Copy`, `/repo/transform.go:8-10`. -/
def copySliceAcc [GoZero T] (grow : Nat → Nat → Nat) (a : Sl) : GoM (Mem T × Nat) Sl := do
  let ys ← a.loadAcc
  Sl.empty.appendAcc grow ys

/-- `CopyTo`, `/repo/transform.go:16-19`. -/
def copyToAcc [GoZero T] (grow : Nat → Nat → Nat) (a to : Sl) : GoM (Mem T × Nat) Sl := do
  let t ← to.sliceAcc 0 0
  let ys ← a.loadAcc
  t.appendAcc grow ys

/-- Loop of `Fill` and of `FillPattern`, `/repo/transform.go:34-36` and `/repo/transform.go:50-52`; `j *= 2` wraps at 64 bits. -/
def fillLoopAcc (a : Sl) : (fuel : Nat) → (j : Int) → GoM (Mem T × Nat) Unit
  | 0, _ => GoM.diverge
  | fuel + 1, j =>
    if j < a.len then do
      let d ← a.sliceAcc j a.len
      let s ← a.sliceAcc 0 j
      d.copyAcc s
      fillLoopAcc a fuel (wrap64 (j * 2))
    else pure ()

/-- `Fill`, `/repo/transform.go:24-37`. -/
def fillAcc (a : Sl) (v : T) : GoM (Mem T × Nat) Unit :=
  if a.len = 0 then pure ()
  else do
    a.putAcc 0 v
    fillLoopAcc a (a.len + 1) 1

/-- `FillPattern`, `/repo/transform.go:42-53`. -/
def fillPatternAcc (a pattern : Sl) : GoM (Mem T × Nat) Unit :=
  if pattern.len = 0 then GoM.panic
  else do
    a.copyAcc pattern
    fillLoopAcc a (a.len + 1) pattern.len

/-- `FillZero` from go1.21 on, `/repo/transform_fillzero_clear.go:9-11`. -/
def fillZeroAcc [GoZero T] (a : Sl) : GoM (Mem T × Nat) Unit := a.clearAcc

/-- `FillZero` before go1.21, `/repo/transform_fillzero_old.go:9-12`. -/
def fillZeroOldAcc [GoZero T] (a : Sl) : GoM (Mem T × Nat) Unit := fillAcc a GoZero.zero

/-- Loop of `TransformTo`, `/repo/transform.go:62-64`. `rd i` reads `a[i]`: from the same memory when `R` and `T` are the same type (the
slices may then overlap), from a memory that cannot change when they are not. -/
def transformToLoopAcc [GoZero R] (grow : Nat → Nat → Nat) (rd : Nat → GoM (Mem R × Nat) T) (op : σ → T → σ × R) :
    (n i : Nat) → σ → Sl → GoM (Mem R × Nat) (σ × Sl)
  | 0, _, t, b => pure (t, b)
  | n + 1, i, t, b => do
    let v ← rd i
    let r := op t v
    let b ← b.appendAcc grow [r.2]
    transformToLoopAcc grow rd op n (i + 1) r.1 b

/-- `TransformTo`, `/repo/transform.go:60-66`, for `R` the type `T`. -/
def transformToAcc [GoZero T] (grow : Nat → Nat → Nat) (a : Sl) (op : σ → T → σ × T) (t : σ) (b : Sl) : GoM (Mem T × Nat) (σ × Sl) := do
  let b ← b.sliceAcc 0 0
  transformToLoopAcc grow (fun i => a.getAcc i) op a.len 0 t b

/-- Loop of `Transform`, `/repo/transform.go:72-74`. -/
def transformLoopAcc (a : Sl) (op : σ → T → σ × T) : (n i : Nat) → σ → GoM (Mem T × Nat) σ
  | 0, _, t => pure t
  | n + 1, i, t => do
    let v ← a.getAcc i
    let r := op t v
    a.putAcc i r.2
    transformLoopAcc a op n (i + 1) r.1

/-- `Transform`, `/repo/transform.go:71-75`. -/
def transformAcc (a : Sl) (op : σ → T → σ × T) (t : σ) : GoM (Mem T × Nat) σ := transformLoopAcc a op a.len 0 t

/-- Loop of `TransformCopy`, `/repo/transform.go:82-84`; `rd` as in `transformToLoop`. -/
def transformCopyLoopAcc (rd : Nat → GoM (Mem R × Nat) T) (op : σ → T → σ × R) (r : Sl) : (n i : Nat) → σ → GoM (Mem R × Nat) σ
  | 0, _, t => pure t
  | n + 1, i, t => do
    let v ← rd i
    let x := op t v
    r.putAcc i x.2
    transformCopyLoopAcc rd op r n (i + 1) x.1

/-- `TransformCopy`, `/repo/transform.go:80-86`, for `R` the type `T`. -/
def transformCopyAcc [GoZero T] (a : Sl) (op : σ → T → σ × T) (t : σ) : GoM (Mem T × Nat) (σ × Sl) := do
  let r ← Sl.makeAcc a.len a.len
  let t ← transformCopyLoopAcc (fun i => a.getAcc i) op r a.len 0 t
  return (t, r)

/-- Loop of `Replace`, `/repo/transform.go:92-96`. -/
def replaceLoopAcc [GoEq T] (a : Sl) (old new : T) : (n i : Nat) → GoM (Mem T × Nat) Unit
  | 0, _ => pure ()
  | n + 1, i => do
    let v ← a.getAcc i
    if GoEq.eq v old = true then do
      a.putAcc i new
      replaceLoopAcc a old new n (i + 1)
    else replaceLoopAcc a old new n (i + 1)

/-- `Replace`, `/repo/transform.go:91-97`. -/
def replaceAcc [GoEq T] (a : Sl) (old new : T) : GoM (Mem T × Nat) Unit := replaceLoopAcc a old new a.len 0

/-- Loop of `ReplaceIf`, `/repo/transform.go:103-107`. -/
def replaceIfLoopAcc (a : Sl) (pred : σ → T → σ × Bool) (new : T) : (n i : Nat) → σ → GoM (Mem T × Nat) σ
  | 0, _, t => pure t
  | n + 1, i, t => do
    let v ← a.getAcc i
    let r := pred t v
    if r.2 = true then do
      a.putAcc i new
      replaceIfLoopAcc a pred new n (i + 1) r.1
    else replaceIfLoopAcc a pred new n (i + 1) r.1

/-- `ReplaceIf`, `/repo/transform.go:102-108`. -/
def replaceIfAcc (a : Sl) (pred : σ → T → σ × Bool) (new : T) (t : σ) : GoM (Mem T × Nat) σ := replaceIfLoopAcc a pred new a.len 0 t

/-- Loop of `Unique`, `/repo/transform.go:120-126`: `b` is `a[1:]`, `k` the position in it; returns the final `i`. -/
def uniqueLoopAcc [GoEq T] (a b : Sl) : (n k i : Nat) → (prev : T) → GoM (Mem T × Nat) Nat
  | 0, _, i, _ => pure i
  | n + 1, k, i, prev => do
    let v ← b.getAcc k
    if GoEq.eq v prev = false then do
      a.putAcc i v
      uniqueLoopAcc a b n (k + 1) (i + 1) v
    else uniqueLoopAcc a b n (k + 1) i prev

/-- `Unique`, `/repo/transform.go:114-128`. -/
def uniqueAcc [GoEq T] (a : Sl) : GoM (Mem T × Nat) Sl :=
  if a.len = 0 then pure a
  else do
    let prev ← a.getAcc 0
    let b ← a.sliceAcc 1 a.len
    let i ← uniqueLoopAcc a b b.len 0 1 prev
    a.sliceAcc 0 i

/-- Loop of `UniqueCopy`, `/repo/transform.go:140-145`. -/
def uniqueCopyLoopAcc [GoEq T] [GoZero T] (grow : Nat → Nat → Nat) (a : Sl) : (n k : Nat) → Sl → GoM (Mem T × Nat) Sl
  | 0, _, r => pure r
  | n + 1, k, r => do
    let v ← a.getAcc k
    if r.len > 0 then do
      let l ← r.getAcc (r.len - 1)
      if GoEq.eq l v = true then uniqueCopyLoopAcc grow a n (k + 1) r
      else do
        let r ← r.appendAcc grow [v]
        uniqueCopyLoopAcc grow a n (k + 1) r
    else do
      let r ← r.appendAcc grow [v]
      uniqueCopyLoopAcc grow a n (k + 1) r

/-- `UniqueCopy`, `/repo/transform.go:134-148`. -/
def uniqueCopyAcc [GoEq T] [GoZero T] (grow : Nat → Nat → Nat) (a : Sl) : GoM (Mem T × Nat) Sl :=
  if a.len = 0 then pure Sl.empty
  else uniqueCopyLoopAcc grow a a.len 0 Sl.empty

/-- Loop of `Remove`, `/repo/transform.go:156-161`; returns the final `j`. -/
def removeLoopAcc [GoEq T] (a : Sl) (x : T) : (n k j : Nat) → GoM (Mem T × Nat) Nat
  | 0, _, j => pure j
  | n + 1, k, j => do
    let v ← a.getAcc k
    if GoEq.eq v x = false then do
      a.putAcc j v
      removeLoopAcc a x n (k + 1) (j + 1)
    else removeLoopAcc a x n (k + 1) j

/-- `Remove`, `/repo/transform.go:154-163`. -/
def removeAcc [GoEq T] (a : Sl) (x : T) : GoM (Mem T × Nat) Sl := do
  let j ← removeLoopAcc a x a.len 0 0
  a.sliceAcc 0 j

/-- Loop of `RemoveCopy`, `/repo/transform.go:171-175`. -/
def removeCopyLoopAcc [GoEq T] [GoZero T] (grow : Nat → Nat → Nat) (a : Sl) (x : T) : (n k : Nat) → Sl → GoM (Mem T × Nat) Sl
  | 0, _, r => pure r
  | n + 1, k, r => do
    let v ← a.getAcc k
    if GoEq.eq v x = false then do
      let r ← r.appendAcc grow [v]
      removeCopyLoopAcc grow a x n (k + 1) r
    else removeCopyLoopAcc grow a x n (k + 1) r

/-- `RemoveCopy`, `/repo/transform.go:169-177`. -/
def removeCopyAcc [GoEq T] [GoZero T] (grow : Nat → Nat → Nat) (a : Sl) (x : T) : GoM (Mem T × Nat) Sl := do
  let r ← Sl.makeAcc 0 a.len
  removeCopyLoopAcc grow a x a.len 0 r

/-- Loop of `RemoveIf`, `/repo/transform.go:185-190`. -/
def removeIfLoopAcc (a : Sl) (cond : σ → T → σ × Bool) : (n k j : Nat) → σ → GoM (Mem T × Nat) (σ × Nat)
  | 0, _, j, t => pure (t, j)
  | n + 1, k, j, t => do
    let v ← a.getAcc k
    let c := cond t v
    if c.2 = false then do
      a.putAcc j v
      removeIfLoopAcc a cond n (k + 1) (j + 1) c.1
    else removeIfLoopAcc a cond n (k + 1) j c.1

/-- `RemoveIf`, `/repo/transform.go:183-192`. -/
def removeIfAcc (a : Sl) (cond : σ → T → σ × Bool) (t : σ) : GoM (Mem T × Nat) (σ × Sl) := do
  let r ← removeIfLoopAcc a cond a.len 0 0 t
  let s ← a.sliceAcc 0 r.2
  return (r.1, s)

/-- Loop of `RemoveIfCopy`, `/repo/transform.go:200-204`. -/
def removeIfCopyLoopAcc [GoZero T] (grow : Nat → Nat → Nat) (a : Sl) (cond : σ → T → σ × Bool) : (n k : Nat) → σ → Sl → GoM (Mem T × Nat) (σ × Sl)
  | 0, _, t, r => pure (t, r)
  | n + 1, k, t, r => do
    let v ← a.getAcc k
    let c := cond t v
    if c.2 = false then do
      let r ← r.appendAcc grow [v]
      removeIfCopyLoopAcc grow a cond n (k + 1) c.1 r
    else removeIfCopyLoopAcc grow a cond n (k + 1) c.1 r

/-- `RemoveIfCopy`, `/repo/transform.go:198-206`. -/
def removeIfCopyAcc [GoZero T] (grow : Nat → Nat → Nat) (a : Sl) (cond : σ → T → σ × Bool) (t : σ) : GoM (Mem T × Nat) (σ × Sl) := do
  let r ← Sl.makeAcc 0 a.len
  removeIfCopyLoopAcc grow a cond a.len 0 t r

/-- The swap `a[i], a[j] = a[j], a[i]`, `/repo/transform.go:213` and `/repo/transform.go:222`. -/
def swapAtAcc (a : Sl) (i j : Int) : GoM (Mem T × Nat) Unit := do
  let y ← a.getAcc j
  let x ← a.getAcc i
  a.putAcc i y
  a.putAcc j x

/-- `Shuffle`, `/repo/transform.go:211-215`: `rand.Shuffle(n, swap)` calls `swap(i, j)` for pairs it draws, here any list of pairs. -/
def shuffleAcc (a : Sl) : (draws : List (Nat × Nat)) → GoM (Mem T × Nat) Unit
  | [] => pure ()
  | (i, j) :: draws => do
    swapAtAcc a i j
    shuffleAcc a draws

/-- Loop of `Reverse`, `/repo/transform.go:221-223`. -/
def reverseLoopAcc (a : Sl) : (fuel : Nat) → (i j : Int) → GoM (Mem T × Nat) Unit
  | 0, _, _ => GoM.diverge
  | fuel + 1, i, j =>
    if i < j then do
      swapAtAcc a i j
      reverseLoopAcc a fuel (i + 1) (j - 1)
    else pure ()

/-- `Reverse`, `/repo/transform.go:220-224`. -/
def reverseAcc (a : Sl) : GoM (Mem T × Nat) Unit := reverseLoopAcc a (a.len + 1) 0 (a.len - 1)

/-- Loop of `ReverseCopy`, `/repo/transform.go:231-233`: `n` is `i + 1`. -/
def reverseCopyLoopAcc [GoZero T] (grow : Nat → Nat → Nat) (a : Sl) : (n : Nat) → Sl → GoM (Mem T × Nat) Sl
  | 0, b => pure b
  | i + 1, b => do
    let v ← a.getAcc i
    let b ← b.appendAcc grow [v]
    reverseCopyLoopAcc grow a i b

/-- `ReverseCopy`, `/repo/transform.go:229-235`. -/
def reverseCopyAcc [GoZero T] (grow : Nat → Nat → Nat) (a : Sl) : GoM (Mem T × Nat) Sl := do
  let b ← Sl.makeAcc 0 a.len
  reverseCopyLoopAcc grow a a.len b

/-! ## Vector -/

/-- `*v`, for example `/repo/vector.go:155`. -/
def VS.recvAcc : GoM (VS T × Nat) Sl := GoM.count (fun _ => 0) VS.recv

/-- Assignment to `*v`, for example `/repo/vector.go:49`. -/
def VS.assignAcc (v : Sl) : GoM (VS T × Nat) Unit := GoM.count (fun _ => 0) (VS.assign v)

/-- An expression or statement that does not assign to `*v`, for example `/repo/vector.go:48`. -/
def VS.onAcc (x : GoM (Mem T × Nat) α) : GoM (VS T × Nat) α := fun s =>
  match x (s.1.mem, s.2) with
  | .ok a m => .ok a ({ s.1 with mem := m.1 }, m.2)
  | .panic m => .panic ({ s.1 with mem := m.1 }, m.2)
  | .diverge => .diverge

/-- `Clear`, `/repo/vector.go:47-50`. -/
def Vec.clearAcc [GoZero T] : GoM (VS T × Nat) Unit := do
  let v ← VS.recvAcc
  VS.onAcc (fillZeroAcc v)
  let t ← VS.onAcc (v.sliceAcc 0 0)
  VS.assignAcc t

/-- `Reserve`, `/repo/vector.go:58-64`. -/
def Vec.reserveAcc [GoZero T] (l : Int) : GoM (VS T × Nat) Unit := do
  let v ← VS.recvAcc
  if v.cap < l then do
    let t ← VS.onAcc (Sl.makeAcc v.len l)
    VS.onAcc (t.copyAcc v)
    VS.assignAcc t
  else pure ()

/-- `Shrink`, `/repo/vector.go:67-71`. -/
def Vec.shrinkAcc [GoZero T] (grow : Nat → Nat → Nat) : GoM (VS T × Nat) Unit := do
  let v ← VS.recvAcc
  if v.cap > v.len then do
    let ys ← VS.onAcc v.loadAcc
    let t ← VS.onAcc (Sl.empty.appendAcc grow ys)
    VS.assignAcc t
  else pure ()

/-- `At`, `/repo/vector.go:75-77`. -/
def Vec.atAcc (i : Int) : GoM (VS T × Nat) T := do
  let v ← VS.recvAcc
  VS.onAcc (v.getAcc i)

/-- `Set`, `/repo/vector.go:81-83`. -/
def Vec.setAcc (i : Int) (x : T) : GoM (VS T × Nat) Unit := do
  let v ← VS.recvAcc
  VS.onAcc (v.putAcc i x)

/-- `PushBack`, `/repo/vector.go:88-90`. -/
def Vec.pushBackAcc [GoZero T] (grow : Nat → Nat → Nat) (x : T) : GoM (VS T × Nat) Unit := do
  let v ← VS.recvAcc
  let t ← VS.onAcc (v.appendAcc grow [x])
  VS.assignAcc t

/-- `PopBack`, `/repo/vector.go:95-101`. -/
def Vec.popBackAcc [GoZero T] : GoM (VS T × Nat) T := do
  let v ← VS.recvAcc
  let e ← VS.onAcc (v.getAcc (v.len - 1))
  VS.onAcc (v.putAcc (v.len - 1) GoZero.zero)
  let t ← VS.onAcc (v.sliceAcc 0 (v.len - 1))
  VS.assignAcc t
  return e

/-- `TryPopBack`, `/repo/vector.go:104-110`. -/
def Vec.tryPopBackAcc [GoZero T] : GoM (VS T × Nat) (T × Bool) := do
  let b ← GoM.count (fun _ => 0) Vec.isEmpty
  if b = true then pure (GoZero.zero, false)
  else do
    let e ← Vec.popBackAcc
    return (e, true)

/-- `Back`, `/repo/vector.go:115-117`. -/
def Vec.backAcc : GoM (VS T × Nat) T := do
  let v ← VS.recvAcc
  VS.onAcc (v.getAcc (v.len - 1))

/-- `Append`, `/repo/vector.go:120-122`, for the argument slice `x`. -/
def Vec.appendAcc [GoZero T] (grow : Nat → Nat → Nat) (x : Sl) : GoM (VS T × Nat) Unit := do
  let v ← VS.recvAcc
  let ys ← VS.onAcc x.loadAcc
  let t ← VS.onAcc (v.appendAcc grow ys)
  VS.assignAcc t

/-- `Insert`, `/repo/vector.go:129-144`, for the argument slice `x`. -/
def Vec.insertAcc [GoZero T] (i : Int) (x : Sl) : GoM (VS T × Nat) Unit := do
  let s ← VS.recvAcc
  let total := s.len + x.len
  if total ≤ s.cap then do
    let s2 ← VS.onAcc (s.sliceAcc 0 total)
    let d ← VS.onAcc (s2.sliceAcc (i + x.len) s2.len)
    let t ← VS.onAcc (s.sliceAcc i s.len)
    VS.onAcc (d.copyAcc t)
    let d ← VS.onAcc (s2.sliceAcc i s2.len)
    VS.onAcc (d.copyAcc x)
    VS.assignAcc s2
  else do
    let s2 ← VS.onAcc (Sl.makeAcc total total)
    let t ← VS.onAcc (s.sliceAcc 0 i)
    VS.onAcc (s2.copyAcc t)
    let d ← VS.onAcc (s2.sliceAcc i s2.len)
    VS.onAcc (d.copyAcc x)
    let d ← VS.onAcc (s2.sliceAcc (i + x.len) s2.len)
    let t ← VS.onAcc (s.sliceAcc i s.len)
    VS.onAcc (d.copyAcc t)
    VS.assignAcc s2

/-- `RemoveRange`, `/repo/vector.go:154-158`. -/
def Vec.removeRangeAcc [GoZero T] (grow : Nat → Nat → Nat) (i j : Int) : GoM (VS T × Nat) Unit := do
  let oldV ← VS.recvAcc
  let a ← VS.onAcc (oldV.sliceAcc 0 i)
  let b ← VS.onAcc (oldV.sliceAcc j oldV.len)
  let ys ← VS.onAcc b.loadAcc
  let t ← VS.onAcc (a.appendAcc grow ys)
  VS.assignAcc t
  let rest ← VS.onAcc (oldV.sliceAcc t.len oldV.len)
  VS.onAcc (fillZeroAcc rest)

/-- `Remove`, `/repo/vector.go:149-151`. -/
def Vec.removeAcc [GoZero T] (grow : Nat → Nat → Nat) (i : Int) : GoM (VS T × Nat) Unit := Vec.removeRangeAcc grow i (i + 1)

/-- `RemoveLength`, `/repo/vector.go:161-163`. -/
def Vec.removeLengthAcc [GoZero T] (grow : Nat → Nat → Nat) (i len : Int) : GoM (VS T × Nat) Unit := Vec.removeRangeAcc grow i (i + len)

/-- `RemoveIf`, `/repo/vector.go:166-170`. -/
def Vec.removeIfAcc [GoZero T] (cond : σ → T → σ × Bool) (t : σ) : GoM (VS T × Nat) σ := do
  let oldV ← VS.recvAcc
  let r ← VS.onAcc (Stl4go.removeIfAcc oldV cond t)
  VS.assignAcc r.2
  let rest ← VS.onAcc (oldV.sliceAcc r.2.len oldV.len)
  VS.onAcc (fillZeroAcc rest)
  return r.1

/-- Loop of `ForEach`, `/repo/vector.go:174-176`. -/
def Vec.forEachLoopAcc (v : Sl) (cb : σ → T → σ) : (n i : Nat) → σ → GoM (Mem T × Nat) σ
  | 0, _, t => pure t
  | n + 1, i, t => do
    let e ← v.getAcc i
    Vec.forEachLoopAcc v cb n (i + 1) (cb t e)

/-- `ForEach`, `/repo/vector.go:173-177`. -/
def Vec.forEachAcc (cb : σ → T → σ) (t : σ) : GoM (VS T × Nat) σ := do
  let v ← VS.recvAcc
  VS.onAcc (Vec.forEachLoopAcc v cb v.len 0 t)

/-- Loop of `ForEachIf`, `/repo/vector.go:182-186`. -/
def Vec.forEachIfLoopAcc (v : Sl) (cb : σ → T → σ × Bool) : (n i : Nat) → σ → GoM (Mem T × Nat) σ
  | 0, _, t => pure t
  | n + 1, i, t => do
    let e ← v.getAcc i
    if (cb t e).2 = false then pure (cb t e).1
    else Vec.forEachIfLoopAcc v cb n (i + 1) (cb t e).1

/-- `ForEachIf`, `/repo/vector.go:181-187`. -/
def Vec.forEachIfAcc (cb : σ → T → σ × Bool) (t : σ) : GoM (VS T × Nat) σ := do
  let v ← VS.recvAcc
  VS.onAcc (Vec.forEachIfLoopAcc v cb v.len 0 t)

/-- Loop of `ForEachMutable`, `/repo/vector.go:191-193`: the callback gets a pointer to the element and leaves a value there. -/
def Vec.forEachMutableLoopAcc (v : Sl) (cb : σ → T → σ × T) : (n i : Nat) → σ → GoM (Mem T × Nat) σ
  | 0, _, t => pure t
  | n + 1, i, t => do
    let e ← v.getAcc i
    v.putAcc i (cb t e).2
    Vec.forEachMutableLoopAcc v cb n (i + 1) (cb t e).1

/-- `ForEachMutable`, `/repo/vector.go:190-194`. -/
def Vec.forEachMutableAcc (cb : σ → T → σ × T) (t : σ) : GoM (VS T × Nat) σ := do
  let v ← VS.recvAcc
  VS.onAcc (Vec.forEachMutableLoopAcc v cb v.len 0 t)

/-- Loop of `ForEachMutableIf`, `/repo/vector.go:199-203`. -/
def Vec.forEachMutableIfLoopAcc (v : Sl) (cb : σ → T → σ × T × Bool) : (n i : Nat) → σ → GoM (Mem T × Nat) σ
  | 0, _, t => pure t
  | n + 1, i, t => do
    let e ← v.getAcc i
    v.putAcc i (cb t e).2.1
    if (cb t e).2.2 = false then pure (cb t e).1
    else Vec.forEachMutableIfLoopAcc v cb n (i + 1) (cb t e).1

/-- `ForEachMutableIf`, `/repo/vector.go:198-204`. -/
def Vec.forEachMutableIfAcc (cb : σ → T → σ × T × Bool) (t : σ) : GoM (VS T × Nat) σ := do
  let v ← VS.recvAcc
  VS.onAcc (Vec.forEachMutableIfLoopAcc v cb v.len 0 t)

end Stl4go
