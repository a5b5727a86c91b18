import Verif.Model.Vector
/-!
# Model of the functions on slices that take a callback, the callback being Go code

In `Model/Transform.lean`, `Model/Vector.lean`, `Model/Lookup.lean`, `Model/Compute.lean`, `Model/Generate.lean` and
`Model/BinarySearch.lean` a callback is a mathematical function, with a state at most. Here it is a Go function: it may change the
memory, the slice it is called for included, may assign to the variable that holds the slice, may panic and may never return.
The state is the memory of the element type and `ρ`: everything else the callback can reach. The state at a panic is what a caller that
recovers finds. A `range` loop evaluates the slice once and reads element `i` when it comes to it.
-/
namespace Stl4go
variable {T R ρ α : Type}

/-- Memory of the element type and everything else a callback may reach (`/repo/transform.go:183`). -/
structure CS (T ρ : Type) where
  mem : Mem T
  st : ρ

/-- A statement that only touches memory (`/repo/transform.go:187`). -/
def CS.on (x : GoM (Mem T) α) : GoM (CS T ρ) α := fun s =>
  match x s.mem with
  | .ok a m => .ok a { s with mem := m }
  | .panic m => .panic { s with mem := m }
  | .diverge => .diverge

/-! ## lookup.go, compute.go -/

/-- Loop of `FindIf`, `/repo/lookup.go:105-110`. -/
def findIfLoopC (a : Sl) (cond : T → GoM (CS T ρ) Bool) : (n i : Nat) → GoM (CS T ρ) (Int × Bool)
  | 0, _ => pure (-1, false)
  | n + 1, i => do
    let v ← CS.on (a.get i)
    let b ← cond v
    if b = true then pure ((i : Int), true)
    else findIfLoopC a cond n (i + 1)

/-- `FindIf`, `/repo/lookup.go:104-111`. -/
def findIfC (a : Sl) (cond : T → GoM (CS T ρ) Bool) : GoM (CS T ρ) (Int × Bool) := findIfLoopC a cond a.len 0

/-- Loop of `AllOf`, `/repo/lookup.go:131-136`. -/
def allOfLoopC (a : Sl) (pred : T → GoM (CS T ρ) Bool) : (n i : Nat) → GoM (CS T ρ) Bool
  | 0, _ => pure true
  | n + 1, i => do
    let v ← CS.on (a.get i)
    let b ← pred v
    if b = false then pure false
    else allOfLoopC a pred n (i + 1)

/-- `AllOf`, `/repo/lookup.go:130-137`. -/
def allOfC (a : Sl) (pred : T → GoM (CS T ρ) Bool) : GoM (CS T ρ) Bool := allOfLoopC a pred a.len 0

/-- Loop of `AnyOf`, `/repo/lookup.go:143-148`. -/
def anyOfLoopC (a : Sl) (pred : T → GoM (CS T ρ) Bool) : (n i : Nat) → GoM (CS T ρ) Bool
  | 0, _ => pure false
  | n + 1, i => do
    let v ← CS.on (a.get i)
    let b ← pred v
    if b = true then pure true
    else anyOfLoopC a pred n (i + 1)

/-- `AnyOf`, `/repo/lookup.go:142-149`. -/
def anyOfC (a : Sl) (pred : T → GoM (CS T ρ) Bool) : GoM (CS T ρ) Bool := anyOfLoopC a pred a.len 0

/-- `NoneOf`, `/repo/lookup.go:154-156`. -/
def noneOfC (a : Sl) (pred : T → GoM (CS T ρ) Bool) : GoM (CS T ρ) Bool := do
  let b ← anyOfC a pred
  return !b

/-- Loop of `CountIf`, `/repo/compute.go:74-78`. -/
def countIfLoopC (a : Sl) (pred : T → GoM (CS T ρ) Bool) : (n i c : Nat) → GoM (CS T ρ) Nat
  | 0, _, c => pure c
  | n + 1, i, c => do
    let v ← CS.on (a.get i)
    let b ← pred v
    if b = true then countIfLoopC a pred n (i + 1) (c + 1)
    else countIfLoopC a pred n (i + 1) c

/-- `CountIf`, `/repo/compute.go:72-80`. -/
def countIfC (a : Sl) (pred : T → GoM (CS T ρ) Bool) : GoM (CS T ρ) Nat := countIfLoopC a pred a.len 0 0

/-! ## generate.go, transform.go -/

/-- Loop of `Generate`, `/repo/generate.go:19-21`. -/
def generateLoopC (a : Sl) (gen : GoM (CS T ρ) T) : (n i : Nat) → GoM (CS T ρ) Unit
  | 0, _ => pure ()
  | n + 1, i => do
    let v ← gen
    CS.on (a.put i v)
    generateLoopC a gen n (i + 1)

/-- `Generate`, `/repo/generate.go:18-22`. -/
def generateC (a : Sl) (gen : GoM (CS T ρ) T) : GoM (CS T ρ) Unit := generateLoopC a gen a.len 0

/-- Reading `a[i]` when `R` is another type than `T` (`/repo/transform.go:63`): that memory is then part of what the callback may reach. -/
def readOtherC (a : Sl) (i : Nat) : GoM (CS R (Mem T × ρ)) T := fun s =>
  match a.get (i : Int) s.st.1 with
  | .ok v m => .ok v { s with st := (m, s.st.2) }
  | .panic m => .panic { s with st := (m, s.st.2) }
  | .diverge => .diverge

/-- Loop of `TransformTo`, `/repo/transform.go:62-64`; `rd i` reads `a[i]`. -/
def transformToLoopC [GoZero R] (grow : Nat → Nat → Nat) (rd : Nat → GoM (CS R ρ) T) (op : T → GoM (CS R ρ) R) :
    (n i : Nat) → Sl → GoM (CS R ρ) Sl
  | 0, _, b => pure b
  | n + 1, i, b => do
    let v ← rd i
    let r ← op v
    let b ← CS.on (b.append grow [r])
    transformToLoopC grow rd op n (i + 1) b

/-- `TransformTo`, `/repo/transform.go:60-66`; `n` is `len(a)` and `rd i` reads `a[i]`. -/
def transformToC [GoZero R] (grow : Nat → Nat → Nat) (n : Nat) (rd : Nat → GoM (CS R ρ) T) (op : T → GoM (CS R ρ) R) (b : Sl) :
    GoM (CS R ρ) Sl := do
  let b ← CS.on (b.slice 0 0)
  transformToLoopC grow rd op n 0 b

/-- Loop of `Transform`, `/repo/transform.go:72-74`. -/
def transformLoopC (a : Sl) (op : T → GoM (CS T ρ) T) : (n i : Nat) → GoM (CS T ρ) Unit
  | 0, _ => pure ()
  | n + 1, i => do
    let v ← CS.on (a.get i)
    let r ← op v
    CS.on (a.put i r)
    transformLoopC a op n (i + 1)

/-- `Transform`, `/repo/transform.go:71-75`. -/
def transformC (a : Sl) (op : T → GoM (CS T ρ) T) : GoM (CS T ρ) Unit := transformLoopC a op a.len 0

/-- Loop of `TransformCopy`, `/repo/transform.go:82-84`; `rd i` reads `a[i]`. -/
def transformCopyLoopC (rd : Nat → GoM (CS R ρ) T) (op : T → GoM (CS R ρ) R) (r : Sl) : (n i : Nat) → GoM (CS R ρ) Unit
  | 0, _ => pure ()
  | n + 1, i => do
    let v ← rd i
    let x ← op v
    CS.on (r.put i x)
    transformCopyLoopC rd op r n (i + 1)

/-- `TransformCopy`, `/repo/transform.go:80-86`; `n` is `len(a)` and `rd i` reads `a[i]`. -/
def transformCopyC [GoZero R] (n : Nat) (rd : Nat → GoM (CS R ρ) T) (op : T → GoM (CS R ρ) R) : GoM (CS R ρ) Sl := do
  let r ← CS.on (Sl.make n n)
  transformCopyLoopC rd op r n 0
  return r

/-- Loop of `ReplaceIf`, `/repo/transform.go:103-107`. -/
def replaceIfLoopC (a : Sl) (pred : T → GoM (CS T ρ) Bool) (new : T) : (n i : Nat) → GoM (CS T ρ) Unit
  | 0, _ => pure ()
  | n + 1, i => do
    let v ← CS.on (a.get i)
    let b ← pred v
    if b = true then do
      CS.on (a.put i new)
      replaceIfLoopC a pred new n (i + 1)
    else replaceIfLoopC a pred new n (i + 1)

/-- `ReplaceIf`, `/repo/transform.go:102-108`. -/
def replaceIfC (a : Sl) (pred : T → GoM (CS T ρ) Bool) (new : T) : GoM (CS T ρ) Unit := replaceIfLoopC a pred new a.len 0

/-- Loop of `RemoveIf`, `/repo/transform.go:185-190`; returns the final `j`. -/
def removeIfLoopC (a : Sl) (cond : T → GoM (CS T ρ) Bool) : (n i j : Nat) → GoM (CS T ρ) Nat
  | 0, _, j => pure j
  | n + 1, i, j => do
    let v ← CS.on (a.get i)
    let b ← cond v
    if b = false then do
      CS.on (a.put j v)
      removeIfLoopC a cond n (i + 1) (j + 1)
    else removeIfLoopC a cond n (i + 1) j

/-- `RemoveIf`, `/repo/transform.go:183-192`. -/
def removeIfC (a : Sl) (cond : T → GoM (CS T ρ) Bool) : GoM (CS T ρ) Sl := do
  let j ← removeIfLoopC a cond a.len 0 0
  CS.on (a.slice 0 j)

/-- Loop of `RemoveIfCopy`, `/repo/transform.go:200-204`. -/
def removeIfCopyLoopC [GoZero T] (grow : Nat → Nat → Nat) (a : Sl) (cond : T → GoM (CS T ρ) Bool) : (n i : Nat) → Sl → GoM (CS T ρ) Sl
  | 0, _, r => pure r
  | n + 1, i, r => do
    let v ← CS.on (a.get i)
    let b ← cond v
    if b = false then do
      let r ← CS.on (r.append grow [v])
      removeIfCopyLoopC grow a cond n (i + 1) r
    else removeIfCopyLoopC grow a cond n (i + 1) r

/-- `RemoveIfCopy`, `/repo/transform.go:198-206`. -/
def removeIfCopyC [GoZero T] (grow : Nat → Nat → Nat) (a : Sl) (cond : T → GoM (CS T ρ) Bool) : GoM (CS T ρ) Sl := do
  let r ← CS.on (Sl.make 0 a.len)
  removeIfCopyLoopC grow a cond a.len 0 r

/-! ## vector.go -/

/-- A statement of a method of `*Vector`; the variable `*v` is within reach of the callback (`/repo/vector.go:166`). -/
def CS.vec (x : GoM (VS T) α) : GoM (CS T (Sl × ρ)) α := fun s =>
  match x ⟨s.mem, s.st.1⟩ with
  | .ok a t => .ok a ⟨t.mem, t.v, s.st.2⟩
  | .panic t => .panic ⟨t.mem, t.v, s.st.2⟩
  | .diverge => .diverge

/-- `RemoveIf`, `/repo/vector.go:166-170`. -/
def Vec.removeIfC [GoZero T] (cond : T → GoM (CS T (Sl × ρ)) Bool) : GoM (CS T (Sl × ρ)) Unit := do
  let oldV ← CS.vec VS.recv
  let v ← CS.vec VS.recv
  let r ← Stl4go.removeIfC v cond
  CS.vec (VS.assign r)
  let v ← CS.vec VS.recv
  let rest ← CS.on (oldV.slice v.len oldV.len)
  CS.on (fillZero rest)

/-- Loop of `ForEach`, `/repo/vector.go:174-176`. -/
def Vec.forEachLoopC (v : Sl) (cb : T → GoM (CS T ρ) Unit) : (n i : Nat) → GoM (CS T ρ) Unit
  | 0, _ => pure ()
  | n + 1, i => do
    let e ← CS.on (v.get i)
    cb e
    Vec.forEachLoopC v cb n (i + 1)

/-- `ForEach`, `/repo/vector.go:173-177`; the receiver is passed by value. -/
def Vec.forEachC (v : Sl) (cb : T → GoM (CS T ρ) Unit) : GoM (CS T ρ) Unit := Vec.forEachLoopC v cb v.len 0

/-- Loop of `ForEachIf`, `/repo/vector.go:182-186`. -/
def Vec.forEachIfLoopC (v : Sl) (cb : T → GoM (CS T ρ) Bool) : (n i : Nat) → GoM (CS T ρ) Unit
  | 0, _ => pure ()
  | n + 1, i => do
    let e ← CS.on (v.get i)
    let b ← cb e
    if b = false then pure ()
    else Vec.forEachIfLoopC v cb n (i + 1)

/-- `ForEachIf`, `/repo/vector.go:181-187`. -/
def Vec.forEachIfC (v : Sl) (cb : T → GoM (CS T ρ) Bool) : GoM (CS T ρ) Unit := Vec.forEachIfLoopC v cb v.len 0

/-- `&v[i]` (`/repo/vector.go:192`): a pointer is an address. -/
def Sl.addr (v : Sl) (i : Int) : GoM (Mem T) Nat := fun m =>
  if 0 ≤ i ∧ i < v.len then .ok (v.off + i.toNat) m else .panic m

/-- Loop of `ForEachMutable`, `/repo/vector.go:191-193`. -/
def Vec.forEachMutableLoopC (v : Sl) (cb : Nat → GoM (CS T ρ) Unit) : (n i : Nat) → GoM (CS T ρ) Unit
  | 0, _ => pure ()
  | n + 1, i => do
    let p ← CS.on (v.addr i)
    cb p
    Vec.forEachMutableLoopC v cb n (i + 1)

/-- `ForEachMutable`, `/repo/vector.go:190-194`. -/
def Vec.forEachMutableC (v : Sl) (cb : Nat → GoM (CS T ρ) Unit) : GoM (CS T ρ) Unit := Vec.forEachMutableLoopC v cb v.len 0

/-- Loop of `ForEachMutableIf`, `/repo/vector.go:199-203`. -/
def Vec.forEachMutableIfLoopC (v : Sl) (cb : Nat → GoM (CS T ρ) Bool) : (n i : Nat) → GoM (CS T ρ) Unit
  | 0, _ => pure ()
  | n + 1, i => do
    let p ← CS.on (v.addr i)
    let b ← cb p
    if b = false then pure ()
    else Vec.forEachMutableIfLoopC v cb n (i + 1)

/-- `ForEachMutableIf`, `/repo/vector.go:198-204`. -/
def Vec.forEachMutableIfC (v : Sl) (cb : Nat → GoM (CS T ρ) Bool) : GoM (CS T ρ) Unit := Vec.forEachMutableIfLoopC v cb v.len 0

/-! ## binary_search.go -/

/-- Loop of `LowerBoundFunc`, `/repo/binary_search.go:35-46`. -/
def lowerBoundFuncLoopE (a : Sl) (value : T) (less : T → T → GoM (CS T ρ) Bool) : (fuel loc count : Nat) → GoM (CS T ρ) Nat
  | 0, _, _ => GoM.diverge
  | fuel + 1, loc, count =>
    if count > 0 then do
      let i := loc
      let step := count / 2
      let i := i + step
      let x ← CS.on (a.get i)
      let b ← less x value
      if b = true then
        let i := i + 1
        lowerBoundFuncLoopE a value less fuel i (count - (step + 1))
      else lowerBoundFuncLoopE a value less fuel loc step
    else pure loc

/-- `LowerBoundFunc`, `/repo/binary_search.go:32-48`. -/
def lowerBoundFuncE (a : Sl) (value : T) (less : T → T → GoM (CS T ρ) Bool) : GoM (CS T ρ) Nat :=
  lowerBoundFuncLoopE a value less (a.len + 1) 0 a.len

/-- Loop of `UpperBoundFunc`, `/repo/binary_search.go:81-92`. -/
def upperBoundFuncLoopE (a : Sl) (value : T) (less : T → T → GoM (CS T ρ) Bool) : (fuel loc count : Nat) → GoM (CS T ρ) Nat
  | 0, _, _ => GoM.diverge
  | fuel + 1, loc, count =>
    if count > 0 then do
      let i := loc
      let step := count / 2
      let i := i + step
      let x ← CS.on (a.get i)
      let b ← less value x
      if b = false then
        let i := i + 1
        upperBoundFuncLoopE a value less fuel i (count - (step + 1))
      else upperBoundFuncLoopE a value less fuel loc step
    else pure loc

/-- `UpperBoundFunc`, `/repo/binary_search.go:78-94`. -/
def upperBoundFuncE (a : Sl) (value : T) (less : T → T → GoM (CS T ρ) Bool) : GoM (CS T ρ) Nat :=
  upperBoundFuncLoopE a value less (a.len + 1) 0 a.len

/-- `BinarySearchFunc`, `/repo/binary_search.go:115-121`. -/
def binarySearchFuncE (a : Sl) (value : T) (less : T → T → GoM (CS T ρ) Bool) : GoM (CS T ρ) (Int × Bool) := do
  let loc ← lowerBoundFuncE a value less
  if loc < a.len then do
    let x ← CS.on (a.get loc)
    let b ← less value x
    if b = false then pure ((loc : Int), true)
    else pure (-1, false)
  else pure (-1, false)

end Stl4go
