import Verif.Tests.Harness
import Verif.Model.Compare
import Verif.Model.Generate
import Verif.Model.Stack
import Verif.Model.Transform
import Verif.Model.Vector
/-!
# The tests of `/repo/transform_test.go`, `/repo/vector_test.go` and `/repo/stack_test.go`, run on the model

Not transcribed: the benchmark, and tests whose only content is that something compiles (`Test_Vector_Interface`, `Test_MakeVector`,
`Test_Stack_Interface`).
-/
namespace Stl4go.Tests

/-! ## `/repo/transform_test.go` -/

/-- `expectTrue(t, Equal(a, b))` for slices, as in `/repo/transform_test.go:15`. -/
def expectEqual (a b : Sl) : GoM (Mem Int) Unit := do
  let x ← a.load
  let y ← b.load
  let r ← call (equal x y)
  expectTrue r

/-- `expectTrue(t, Equal(a, []int{...}))`, as in `/repo/transform_test.go:30`. -/
def expectHolds (a : Sl) (l : List Int) : GoM (Mem Int) Unit := do
  let x ← a.load
  let r ← call (equal x l)
  expectTrue r

/-- `Test_Copy`, `/repo/transform_test.go:12-16`. -/
example : passes (do
    let a ← Sl.lit [1, 2, 3, 4]
    let b ← copySlice growth a
    expectEqual a b) noMem = true := by decide +kernel

/-- `Test_CopyTo`, `/repo/transform_test.go:18-25`. -/
example : (∀ n ∈ [(-1 : Int), 0, 10], passes (do
    let a ← Sl.lit [1, 2, 3, 4]
    let to ← if n < 0 then pure Sl.empty else Sl.make n n
    let b ← copyTo growth a to
    expectEqual a b) noMem = true) := by decide +kernel

/-- `Test_Fill`, `/repo/transform_test.go:27-34`. -/
example : passes (do
    let a ← Sl.lit [1, 2, 3, 4]
    fill a 1
    expectHolds a [1, 1, 1, 1]
    let b ← a.slice 0 0
    fill b 2
    expectHolds a [1, 1, 1, 1]) noMem = true := by decide +kernel

/-- `Test_FillZero`, `/repo/transform_test.go:36-40`. -/
example : passes (do
    let a ← Sl.lit [1, 2, 3, 4]
    fillZero a
    expectHolds a [0, 0, 0, 0]) noMem = true ∧ passes (do
    let a ← Sl.lit [1, 2, 3, 4]
    fillZeroOld a
    expectHolds a [0, 0, 0, 0]) noMem = true := by decide +kernel

/-- `Test_FillPattern`, `/repo/transform_test.go:62-68`. -/
example : passes (do
    let a ← Sl.make 10 10
    let p ← Sl.lit [1, 2, 3]
    fillPattern a p
    expectHolds a [1, 2, 3, 1, 2, 3, 1, 2, 3, 1]
    expectPanic (do let e ← Sl.lit []; fillPattern a e)) noMem = true := by decide +kernel

/-- The numbers from 0 to 99, which `Range(0, 100)` returns (`/repo/transform_test.go:71`; that it does is `/repo/generate_test.go:5-10`). -/
def hundred : List Int := (List.range 100).map Int.ofNat

/-- `Test_Transform`, `/repo/transform_test.go:70-76`. -/
example : passes (do
    let a ← Sl.lit hundred
    transform a (fun (_ : Unit) v => ((), v * v)) ()
    expectHolds a (hundred.map (fun i => i * i))) noMem = true := by decide +kernel

/-- `strconv.Itoa`, called at `/repo/transform_test.go:81`; any function to strings would do. -/
def itoa (v : Int) : String := toString v

/-- `Test_TransformTo`, `/repo/transform_test.go:78-90`. -/
example : passes (do
    let b ← Sl.make hundred.length hundred.length
    let r1 ← transformToOther growth hundred (fun (_ : Unit) v => ((), itoa v)) () b
    let l ← b.load
    expectEq l (hundred.map itoa)
    expectEq r1.2.off b.off
    let c ← Sl.make (hundred.length - 1) (hundred.length - 1)
    let r2 ← transformToOther growth hundred (fun (_ : Unit) v => ((), itoa v)) () c
    expectEq hundred.length r2.2.len
    expectNe r2.2.off c.off) noMem = true := by decide +kernel

/-- `Test_TransformCopy`, `/repo/transform_test.go:92-98`. -/
example : passes (do
    let b ← transformCopyOther hundred (fun (_ : Unit) v => ((), itoa v)) ()
    let l ← b.2.load
    expectEq l (hundred.map itoa)) noMem = true := by decide +kernel

/-- `Test_Replace`, `/repo/transform_test.go:100-104`. -/
example : passes (do
    let a ← Sl.lit [1, 2, 2, 4]
    replace a 2 3
    expectHolds a [1, 3, 3, 4]) noMem = true := by decide +kernel

/-- `Test_ReplaceIf`, `/repo/transform_test.go:106-110`. -/
example : passes (do
    let a ← Sl.lit [1, 2, 2, 4]
    replaceIf a (fun (_ : Unit) n => ((), n == 2)) 3 ()
    expectHolds a [1, 3, 3, 4]) noMem = true := by decide +kernel

/-- `Test_Unique`, `/repo/transform_test.go:112-118`. -/
example : passes (do
    let e ← unique Sl.empty
    expectHolds e []
    let a ← Sl.lit [1, 2, 2, 3, 2, 4]
    let b ← Sl.lit [1, 2, 3, 2, 4]
    let u ← unique a
    expectEqual u b
    let a' ← a.slice 0 b.len
    let u ← unique a'
    expectEqual u b) noMem = true := by decide +kernel

/-- `Test_UniqueCopy`, `/repo/transform_test.go:120-127`. -/
example : passes (do
    let e ← uniqueCopy growth Sl.empty
    expectHolds e []
    let a ← Sl.lit [1, 2, 2, 3, 2, 4]
    let b ← Sl.lit [1, 2, 3, 2, 4]
    let u ← uniqueCopy growth a
    expectEqual u b
    expectHolds a [1, 2, 2, 3, 2, 4]) noMem = true := by decide +kernel

/-- `Test_Remove`, `/repo/transform_test.go:129-134`. -/
example : passes (do
    let a ← Sl.lit [1, 2, 2, 3, 2, 4]
    let b ← remove a 2
    expectHolds b [1, 3, 4]
    let a' ← a.slice 0 b.len
    expectHolds a' [1, 3, 4]) noMem = true := by decide +kernel

/-- `Test_RemoveCopy`, `/repo/transform_test.go:136-142`. -/
example : passes (do
    let a ← Sl.lit [1, 2, 2, 3, 2, 4]
    let b ← removeCopy growth a 2
    expectHolds b [1, 3, 4]
    expectHolds a [1, 2, 2, 3, 2, 4]) noMem = true := by decide +kernel

/-- `Test_RemoveIf`, `/repo/transform_test.go:144-149`. -/
example : passes (do
    let a ← Sl.lit [1, 2, 2, 3, 2, 4]
    let b ← removeIf a (fun (_ : Unit) v => ((), v == 2)) ()
    expectHolds b.2 [1, 3, 4]
    let a' ← a.slice 0 b.2.len
    expectHolds a' [1, 3, 4]) noMem = true := by decide +kernel

/-- `Test_RemoveIfCopy`, `/repo/transform_test.go:151-157`. -/
example : passes (do
    let a ← Sl.lit [1, 2, 2, 3, 2, 4]
    let b ← removeIfCopy growth a (fun (_ : Unit) v => ((), v == 2)) ()
    expectHolds b.2 [1, 3, 4]
    expectHolds a [1, 2, 2, 3, 2, 4]) noMem = true := by decide +kernel

/-- `Test_Shuffle`, `/repo/transform_test.go:159-162`, which only expects that there is no panic; with some draws. -/
example : passes (do
    let a ← Sl.lit [1, 2, 3, 4, 5, 6]
    shuffle a [(5, 2), (4, 4), (3, 0), (2, 1), (1, 0)]) noMem = true := by decide +kernel

/-- `Test_Reverse`, `/repo/transform_test.go:164-168`. -/
example : passes (do
    let a ← Sl.lit [1, 2, 3, 4]
    reverse a
    expectHolds a [4, 3, 2, 1]) noMem = true := by decide +kernel

/-- `Test_Reverse_Odd`, `/repo/transform_test.go:170-174`. -/
example : passes (do
    let a ← Sl.lit [1, 2, 3, 4, 5]
    reverse a
    expectHolds a [5, 4, 3, 2, 1]) noMem = true := by decide +kernel

/-- `Test_ReverseCopy`, `/repo/transform_test.go:176-180`. -/
example : passes (do
    let a ← Sl.lit [1, 2, 3, 4, 5]
    let b ← reverseCopy growth a
    expectHolds b [5, 4, 3, 2, 1]) noMem = true := by decide +kernel

/-! ## `/repo/vector_test.go` -/

/-- A variable of type `Vector[int]` or `*Stack[int]` that holds nothing yet (as declared at `/repo/vector_test.go:18`). -/
def noVec : VS Int := { mem := noMem, v := Sl.empty }

/-- `expectEq(t, v.Len(), n)`, as in `/repo/vector_test.go:25`. -/
def expectLen (n : Int) : GoM (VS Int) Unit := do let l ← Vec.len; expectEq l n

/-- `expectEq(t, v.Cap(), n)`, as in `/repo/vector_test.go:26`. -/
def expectCap (n : Int) : GoM (VS Int) Unit := do let l ← Vec.cap; expectEq l n

/-- `expectEq(t, v[i], x)` for a slice `v`, as in `/repo/vector_test.go:33`. -/
def expectAt (v : Sl) (i : Int) (x : Int) : GoM (VS Int) Unit := do let y ← VS.on (v.get i); expectEq y x

/-- `expectTrue(t, Equal(v, []int{...}))`, as in `/repo/vector_test.go:94`. -/
def expectVec (l : List Int) : GoM (VS Int) Unit := do let v ← VS.recv; VS.on (expectHolds v l)

/-- `Test_MakeVectorCap`, `/repo/vector_test.go:21-25`. -/
example : passes (do Vec.makeCap 10; expectLen 0; expectCap 10) noVec = true := by decide +kernel

/-- `Test_VectorOf`, `/repo/vector_test.go:27-34`. -/
example : passes (do
    Vec.of [1, 2, 3]
    expectLen 3
    expectCap 3
    let v ← VS.recv
    expectAt v 0 1
    expectAt v 1 2
    expectAt v 2 3) noVec = true := by decide +kernel

/-- `Test_AsVector`, `/repo/vector_test.go:36-41`. -/
example : passes (do
    let s ← VS.on (Sl.lit [1, 2, 3])
    Vec.as s
    let v ← VS.recv
    VS.on (expectEqual s v)
    expectEq s.off v.off) noVec = true := by decide +kernel

/-- `Test_VectorCap`, `/repo/vector_test.go:43-49`. -/
example : passes (do
    Vec.makeCap 10
    Vec.pushBack growth 1
    expectLen 1
    let b ← Vec.isEmpty
    expectFalse b
    expectCap 10) noVec = true := by decide +kernel

/-- `Test_Vector_Clear`, `/repo/vector_test.go:51-57`. -/
example : passes (do
    Vec.of [1, 2, 3]
    Vec.clear
    expectLen 0
    let b ← Vec.isEmpty
    expectTrue b
    let c ← Vec.cap
    expectGt c 0) noVec = true := by decide +kernel

/-- `Test_Vector_Reserve`, `/repo/vector_test.go:59-66`. -/
example : passes (do
    Vec.of [1, 2, 3]
    Vec.reserve 1
    expectCap 3
    Vec.reserve 5
    expectCap 5
    expectLen 3) noVec = true := by decide +kernel

/-- `Test_Vector_Shrink`, `/repo/vector_test.go:68-74`, where `append` to a nil slice allocates what it needs: `Len` and `Cap` are then equal
(`/repo/vector_test.go:73`), which Go's growth gives for some lengths (C45). -/
example : passes (do
    Vec.makeCap 10
    let x ← VS.on (Sl.lit [1, 2, 3])
    Vec.append growth x
    expectCap 10
    Vec.shrink (fun _ n => n)
    let l ← Vec.len
    expectCap l) noVec = true := by decide +kernel

/-- `Test_Vector_At_Set`, `/repo/vector_test.go:76-83`. -/
example : passes (do
    Vec.of [1, 2, 3]
    let x ← Vec.at 0
    expectEq x 1
    let v ← VS.recv
    expectAt v 0 1
    VS.on (v.put 0 2)
    expectAt v 0 2
    expectPanic (Vec.set 3 2)) noVec = true := by decide +kernel

/-- `Test_Vector_PushBack`, `/repo/vector_test.go:85-89`. -/
example : passes (do Vec.of [1, 2, 3]; Vec.pushBack growth 4; expectVec [1, 2, 3, 4]) noVec = true := by decide +kernel

/-- `Test_Vector_PopBack`, `/repo/vector_test.go:91-101`. -/
example : passes (do
    Vec.of [1, 2]
    let x ← Vec.popBack
    expectEq x 2
    let r ← Vec.tryPopBack
    expectEq r (1, true)
    let r ← Vec.tryPopBack
    expectEq r (0, false)
    expectPanic Vec.popBack) noVec = true := by decide +kernel

/-- `Test_Vector_PopBack_Clear`, `/repo/vector_test.go:103-108`. -/
example : passes (do
    Vec.of [1, 2]
    let oldV ← VS.recv
    let _ ← Vec.popBack
    expectAt oldV 1 0) noVec = true := by decide +kernel

/-- `Test_Vector_Back`, `/repo/vector_test.go:110-115`. -/
example : passes (do
    Vec.of [1]
    let x ← Vec.back
    expectEq x 1
    let _ ← Vec.popBack
    expectPanic Vec.back) noVec = true := by decide +kernel

/-- `v.Insert(i, xs...)`, as in `/repo/vector_test.go:119`: the arguments are in a slice of their own. -/
def insertArgs (i : Int) (xs : List Int) : GoM (VS Int) Unit := do let x ← VS.on (Sl.lit xs); Vec.insert i x

/-- `Test_Vector_Insert`, `/repo/vector_test.go:117-121`. -/
example : passes (do Vec.of [1, 2, 3]; insertArgs 0 [1, 2, 3]; expectVec [1, 2, 3, 1, 2, 3]) noVec = true := by decide +kernel

/-- `Test_Vector_Insert_Tail`, `/repo/vector_test.go:123-127`. -/
example : passes (do Vec.of [1, 2, 3]; insertArgs 3 [1, 2, 3]; expectVec [1, 2, 3, 1, 2, 3]) noVec = true := by decide +kernel

/-- `Test_Vector_Insert_Mid`, `/repo/vector_test.go:129-133`. -/
example : passes (do Vec.of [1, 2, 3]; insertArgs 2 [1, 2]; expectVec [1, 2, 1, 2, 3]) noVec = true := by decide +kernel

/-- `Test_Vector_Insert_Cap`, `/repo/vector_test.go:135-140`. -/
example : passes (do Vec.of [1, 2, 3]; Vec.reserve 8; insertArgs 2 [1, 2]; expectVec [1, 2, 1, 2, 3]) noVec = true := by decide +kernel

/-- `Test_Vector_Remove`, `/repo/vector_test.go:142-151`. -/
example : passes (do
    Vec.of [1, 2, 3]
    let oldV ← VS.recv
    Vec.remove growth 1
    expectLen 2
    expectCap 3
    let v ← VS.recv
    expectAt v 0 1
    expectAt v 1 3
    expectAt oldV 2 0) noVec = true := by decide +kernel

/-- What `Test_Vector_RemoveRange` and the two tests after it do, `/repo/vector_test.go:153-189`: remove two elements, `x` is the second one kept. -/
def removeTest (remove : GoM (VS Int) Unit) (x : Int) : GoM (VS Int) Unit := do
  Vec.of [1, 2, 3, 4]
  let oldV ← VS.recv
  remove
  expectLen 2
  expectCap 4
  let v ← VS.recv
  expectAt v 0 1
  expectAt v 1 x
  expectAt oldV 2 0
  expectAt oldV 3 0

/-- `Test_Vector_RemoveRange`, `/repo/vector_test.go:153-163`. -/
example : passes (removeTest (Vec.removeRange growth 1 3) 4) noVec = true := by decide +kernel

/-- `Test_Vector_RemoveLength`, `/repo/vector_test.go:165-175`. -/
example : passes (removeTest (Vec.removeLength growth 1 2) 4) noVec = true := by decide +kernel

/-- `Test_Vector_RemoveIf`, `/repo/vector_test.go:177-187`. -/
example : passes (removeTest (Vec.removeIf (fun (_ : Unit) (i : Int) => ((), i.tmod 2 == 0)) ()) 3) noVec = true := by decide +kernel

/-- `Test_Vector_ForEach`, `/repo/vector_test.go:189-198`. -/
example : passes (do
    Vec.of [1, 2, 3]
    let b ← Vec.forEach (fun (b : List Int) n => b ++ [n]) []
    expectEq b [1, 2, 3]) noVec = true := by decide +kernel

/-- `Test_Vector_ForEachIf`, `/repo/vector_test.go:200-208`. -/
example : passes (do
    Vec.of [1, 2, 3]
    let c ← Vec.forEachIf (fun (_ : Int) n => (n, n != 2)) 0
    expectEq c 2) noVec = true := by decide +kernel

/-- `Test_Vector_ForEachMutable`, `/repo/vector_test.go:210-220`. -/
example : passes (do
    Vec.of [1, 2, 3]
    Vec.forEachMutable (fun (_ : Unit) n => ((), -n)) ()
    expectLen 3
    expectVec [-1, -2, -3]) noVec = true := by decide +kernel

/-- `Test_Vector_ForEachMutableIf`, `/repo/vector_test.go:222-230`. -/
example : passes (do
    Vec.of [1, 2, 3]
    let c ← Vec.forEachMutableIf (fun (_ : Int) n => (n, n, n != 2)) 0
    expectEq c 2) noVec = true := by decide +kernel

/-- `Test_Vector_Iterate`, `/repo/vector_test.go:232-241`. -/
example : passes (do
    Vec.of [1, 2, 3, 4]
    let it ← Vec.iterate
    let l ← VS.on (it.collect 5)
    expectEq l [1, 2, 3, 4]) noVec = true := by decide +kernel

/-- `Test_Vector_IterateRange`, `/repo/vector_test.go:243-252`. -/
example : passes (do
    Vec.of [1, 2, 3, 4]
    let it ← Vec.iterateRange 1 3
    let l ← VS.on (it.collect 5)
    expectEq l [2, 3]) noVec = true := by decide +kernel

/-! ## `/repo/stack_test.go` -/

/-- `expectEq(t, s.Len(), n)`, as in `/repo/stack_test.go:13`. -/
def expectDepth (n : Int) : GoM (VS Int) Unit := do let l ← Stk.len; expectEq l n

/-- `expectEq(t, s.Cap(), n)`, as in `/repo/stack_test.go:20`. -/
def expectRoom (n : Int) : GoM (VS Int) Unit := do let l ← Stk.cap; expectEq l n

/-- `Test_NewStack`, `/repo/stack_test.go:10-15`. -/
example : passes (do Stk.new; expectDepth 0) noVec = true := by decide +kernel

/-- `Test_NewStackCap`, `/repo/stack_test.go:17-21`. -/
example : passes (do Stk.newCap 10; expectDepth 0; expectRoom 10) noVec = true := by decide +kernel

/-- `Test_StackCap`, `/repo/stack_test.go:23-28`. -/
example : passes (do Stk.newCap 10; Stk.push growth 1; expectDepth 1; expectRoom 10) noVec = true := by decide +kernel

/-- `Test_Stack_Clear`, `/repo/stack_test.go:30-37`. -/
example : passes (do
    Stk.new
    Stk.push growth 1
    Stk.push growth 2
    Stk.clear
    expectDepth 0
    let b ← Stk.isEmpty
    expectTrue b) noVec = true := by decide +kernel

/-- `Test_Stack_Push`, `/repo/stack_test.go:39-45`. -/
example : passes (do Stk.new; Stk.push growth 1; expectDepth 1; Stk.push growth 2; expectDepth 2) noVec = true := by decide +kernel

/-- `Test_Stack_TryPop`, `/repo/stack_test.go:47-55`. -/
example : passes (do
    Stk.new
    let r ← Stk.tryPop
    expectFalse r.2
    Stk.push growth 1
    let r ← Stk.tryPop
    expectTrue r.2
    expectEq r.1 1) noVec = true := by decide +kernel

/-- `Test_Stack_Pop`, `/repo/stack_test.go:57-63`. -/
example : passes (do
    Stk.new
    Stk.push growth 1
    let v ← Stk.pop
    expectEq v 1
    expectPanic Stk.pop) noVec = true := by decide +kernel

/-- `Test_Stack_Top`, `/repo/stack_test.go:65-72`. -/
example : passes (do
    Stk.new
    Stk.push growth 1
    let v ← Stk.top
    expectEq v 1
    let _ ← Stk.pop
    expectPanic Stk.top) noVec = true := by decide +kernel

end Stl4go.Tests
