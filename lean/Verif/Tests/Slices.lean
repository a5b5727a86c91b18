import Verif.Tests.Harness
import Verif.Model.BinarySearch
import Verif.Model.Compare
import Verif.Model.Compute
import Verif.Model.Generate
import Verif.Model.Heap
import Verif.Model.Lookup
import Verif.Model.Sort
import Verif.Model.Transform
import Verif.Proofs.SortWitness
/-!
# The tests of the functions on slices, run on the model

Each block is one file of tests in `/repo`; each `example` is one test function, named in the comment with its lines. Not transcribed: benchmarks
(they expect nothing). `sort.Sort` and `sort.Stable` are insertion sort here (any algorithm that meets their contract would do, C62).
-/
namespace Stl4go.Tests

/-! ## `/repo/binary_search_test.go` -/

/-- The slice of the tests, `/repo/binary_search_test.go:6`. -/
def bs : List Int := [1, 2, 4, 5, 5, 6]

/-- `TestLowerBound`, `/repo/binary_search_test.go:5-10`. -/
example : lowerBound bs 1 = .ret 0 ∧ lowerBound bs 5 = .ret 3 ∧ lowerBound bs 7 = .ret bs.length := by decide +kernel

/-- `TestLowerBoundFunc`, `/repo/binary_search_test.go:12-17`. -/
example : lowerBoundFunc bs 1 lessF = .ret 0 ∧ lowerBoundFunc bs 5 lessF = .ret 3 ∧ lowerBoundFunc bs 7 lessF = .ret bs.length := by decide +kernel

/-- `TestUpperBound`, `/repo/binary_search_test.go:19-24`. -/
example : upperBound bs 1 = .ret 1 ∧ upperBound bs 5 = .ret 5 ∧ upperBound bs 7 = .ret bs.length := by decide +kernel

/-- `TestUpperBoundFunc`, `/repo/binary_search_test.go:26-31`. -/
example : upperBoundFunc bs 1 lessF = .ret 1 ∧ upperBoundFunc bs 5 lessF = .ret 5 ∧ upperBoundFunc bs 7 lessF = .ret bs.length := by decide +kernel

/-- `TestBinarySearch`, `/repo/binary_search_test.go:33-46`. -/
example : passes (do
    let r ← call (binarySearch bs 4)
    expectTrue r.2
    expectEq r.1 2
    let r ← call (binarySearch bs 5)
    expectTrue r.2
    expectEq r.1 3
    let r ← call (binarySearch bs 3)
    expectFalse r.2) () = true := by decide +kernel

/-- `TestBinarySearchFunc`, `/repo/binary_search_test.go:48-61`. -/
example : passes (do
    let r ← call (binarySearchFunc bs 4 lessF)
    expectTrue r.2
    expectEq r.1 2
    let r ← call (binarySearchFunc bs 5 lessF)
    expectTrue r.2
    expectEq r.1 3
    let r ← call (binarySearchFunc bs 3 lessF)
    expectFalse r.2) () = true := by decide +kernel

/-! ## `/repo/compare_test.go` -/

/-- `Test_Equal`, `/repo/compare_test.go:5-10`. -/
example : equal ([] : List Int) [] = .ret true ∧ equal [(1 : Int), 2, 3] [1, 2, 3] = .ret true ∧ equal [(1 : Int), 2] [1, 2, 3] = .ret false ∧
    equal [(1 : Int), 2, 2] [1, 2, 3] = .ret false := by decide +kernel

/-- `Test_Compare`, `/repo/compare_test.go:12-19`. -/
example : compare ([] : List Int) [] = .ret 0 ∧ compare [(1 : Int), 2, 3] [1, 2, 3] = .ret 0 ∧ compare [(1 : Int), 2, 2] [1, 2, 3] = .ret (-1) ∧
    compare [(1 : Int), 2, 4] [1, 2, 3] = .ret 1 ∧ compare [(1 : Int), 2] [1, 2, 3] = .ret (-1) ∧
    compare [(1 : Int), 2, 3] [1, 2] = .ret 1 := by decide +kernel

/-! ## `/repo/compute_test.go` and `/repo/generate_test.go` -/

/-- A platform with 64-bit words; no test converts a float that does not fit. -/
def pf64 : Platform := { w := 64, oob := fun _ _ => 0 }

/-- The elements of `Range(first, last)`, as `/repo/compute_test.go:9` makes them. -/
def rangeOf (k : NKind) (first last : k.Val) : GoM (Mem k.Val) (List k.Val) := do
  let a ← range pf64 growth 200 k first last
  a.load

/-- The float64 nearest to `a / b`: a literal as in `/repo/compute_test.go:24`. -/
def f64 (a b : Nat) : Flt := GoFloat.float64.round false (a * Flt.one) b

/-- A memory of floats with nothing in it (`/repo/compute_test.go:24`). -/
def noFloats : Mem Flt := { cell := fun _ => Flt.fin 0, top := 0 }

/-- `Test_SumAs`, `/repo/compute_test.go:7-27`. The constant `101.2*50` is 5060, exactly. -/
example : passes (do let a ← rangeOf (.int .uint8) 1 101; expectEq (sumAs pf64 (.int .int) (.int .uint8) a) 5050) noMem = true ∧
    passes (do let a ← rangeOf (.int .int) 1 101; expectEq (sumAs pf64 (.int .uint8) (.int .int) a) (5050 % 256)) noMem = true ∧
    passes (do let a ← rangeOf (.int .int64) 1 101; expectEq (sumAs pf64 (.flt .float64) (.int .int64) a) (f64 5050 1)) noMem = true ∧
    passes (do let a ← rangeOf (.flt .float64) (f64 11 10) (f64 1011 10); expectEq (sumAs pf64 (.int .int) (.flt .float64) a) 5060) noFloats = true := by
  decide +kernel

/-- `Test_Sum`, `/repo/compute_test.go:29-32`. -/
example : passes (do let a ← rangeOf (.int .int) 1 101; expectEq (sum pf64 (.int .int) a) 5050) noMem = true := by decide +kernel

/-- `Test_Average`, `/repo/compute_test.go:34-37`. -/
example : passes (do
    let a ← rangeOf (.int .int) 1 101
    let r ← call (average pf64 (.int .int) a)
    expectEq r 50) noMem = true := by decide +kernel

/-- `Test_AverageAs`, `/repo/compute_test.go:39-42`. -/
example : averageAs pf64 (.flt .float64) (.int .int) [1, 0] = .ret (f64 1 2) := by decide +kernel

/-- `Test_Average_U64`, `Test_Average_SmallType` and `Test_Average_UintPtr`, `/repo/compute_test.go:44-47`, `/repo/compute_test.go:54-62`. -/
example : (∀ g ∈ [GoInt.uint64, .uint8, .uintptr], passes (do
    let a ← rangeOf (.int g) 0 101
    let r ← call (average pf64 (.int g) a)
    expectEq r 50) noMem = true) := by decide +kernel

/-- `Test_Average_Float`, `/repo/compute_test.go:49-52`. -/
example : passes (do
    let a ← rangeOf (.flt .float64) (f64 0 1) (f64 101 1)
    let r ← call (average pf64 (.flt .float64) a)
    expectEq r (f64 50 1)) noFloats = true := by decide +kernel

/-- `Test_Average_Signed`, `/repo/compute_test.go:64-67`. -/
example : average pf64 (.int .int) [-2, 1, -1, 2, 1, -1, 0] = .ret 0 := by decide +kernel

/-- `pos`, `neg` and `mix`, `/repo/lookup_test.go:76-80`. -/
def pos : List Int := [1, 2, 3, 4, 5]
/-- See `pos`. -/
def neg : List Int := [-1, -2, -3, -4, -5]
/-- See `pos`. -/
def mix : List Int := [1, -2, 3, -4, 5]

/-- `isNegative`, `/repo/lookup_test.go:82`. -/
def isNegative (n : Int) : Bool := decide (n < 0)

/-- `Test_Count`, `/repo/compute_test.go:69-75`. -/
example : count [(1 : Int), 2, 3, 4, 3] 3 = 2 ∧ countIf pos isNegative = 0 ∧ countIf neg isNegative = 5 ∧ countIf mix isNegative = 2 := by decide +kernel

/-- `Test_Range`, `/repo/generate_test.go:5-10`. -/
example : passes (do
    let a ← rangeOf (.int .int) 0 100
    expectEq a.length 100
    expectEq a[0]? (some 0)
    expectEq a[99]? (some 99)) noMem = true := by decide +kernel

/-- `Test_Generate`, `/repo/generate_test.go:12-19`. -/
example : passes (do
    let a ← Sl.make 100 100
    let _ ← generate a (fun i => (i + 1, i + 1)) (-1 : Int)
    let l ← a.load
    expectEq l ((List.range 100).map Int.ofNat)) noMem = true := by decide +kernel

/-! ## `/repo/lookup_test.go` -/

/-- `Test_Min`, `/repo/lookup_test.go:5-10`. -/
example : min2 (1 : Int) 2 = 1 ∧ min2 (2 : Int) 1 = 1 ∧ min2 (1 : Int) 1 = 1 ∧ min2 "hello" "world" = "hello" := by decide +kernel

/-- `Test_Max`, `/repo/lookup_test.go:12-17`. -/
example : max2 (1 : Int) 2 = 2 ∧ max2 (2 : Int) 1 = 2 ∧ max2 (2 : Int) 2 = 2 ∧ max2 "hello" "world" = "world" := by decide +kernel

/-- `Test_MinN`, `/repo/lookup_test.go:19-25`. -/
example : minN [(1 : Int), 2, 3] = .ret 1 ∧ minN [(2 : Int), 1, 3] = .ret 1 ∧ minN [(1 : Int), 1, 1] = .ret 1 ∧ minN ["hello", "world"] = .ret "hello" ∧
    minN ([] : List Int) = .panic := by decide +kernel

/-- `Test_MaxN`, `/repo/lookup_test.go:27-33`. -/
example : maxN [(1 : Int), 2] = .ret 2 ∧ maxN [(2 : Int), 1] = .ret 2 ∧ maxN [(2 : Int), 2] = .ret 2 ∧ maxN ["hello", "world"] = .ret "world" ∧
    maxN ([] : List Int) = .panic := by decide +kernel

/-- `Test_MinMax`, `/repo/lookup_test.go:35-42`. -/
example : minMax (1 : Int) 2 = (1, 2) ∧ minMax (2 : Int) 1 = (1, 2) := by decide +kernel

/-- `Test_MinMaxN`, `/repo/lookup_test.go:44-49`. -/
example : minMaxN [(3 : Int), 4, 1, 2] = .ret (1, 4) ∧ minMaxN ([] : List Int) = .panic := by decide +kernel

/-- `Test_Find`, `/repo/lookup_test.go:51-58`. -/
example : find [(1 : Int), 2, 3, 4, 3] 3 = (2, true) ∧ (find [(1 : Int), 2, 3, 4, 3] 5).2 = false := by decide +kernel

/-- `Test_FindIf`, `/repo/lookup_test.go:60-68`. -/
example : findIf [1, 2, -3, 4, 3] isNegative = (2, true) ∧ (findIf [1, 2, 3, 4, 3] isNegative).2 = false := by decide +kernel

/-- `Test_Index`, `/repo/lookup_test.go:70-74`. -/
example : index [(1 : Int), 2, 3, 4, 3] 3 = 2 ∧ index [(1 : Int), 2, 3, 4, 3] 5 = -1 := by decide +kernel

/-- `Test_AllOf`, `/repo/lookup_test.go:84-88`. -/
example : allOf pos isNegative = false ∧ allOf neg isNegative = true ∧ allOf mix isNegative = false := by decide +kernel

/-- `Test_AnyOf`, `/repo/lookup_test.go:90-94`. -/
example : anyOf pos isNegative = false ∧ anyOf neg isNegative = true ∧ anyOf mix isNegative = true := by decide +kernel

/-- `Test_NoneOf`, `/repo/lookup_test.go:96-100`. -/
example : noneOf pos isNegative = true ∧ noneOf neg isNegative = false ∧ noneOf mix isNegative = false := by decide +kernel

/-! ## `/repo/sort_test.go` -/

/-- `Test_IsSorted`, `/repo/sort_test.go:7-12`. -/
example : isSorted ([] : List Int) = .ret true ∧ isSorted [(1 : Int), 2, 3, 4] = .ret true ∧ isSorted [(1 : Int), 2, 2, 3, 4] = .ret true ∧
    isSorted [(1 : Int), 2, 2, 3, 2] = .ret false := by decide +kernel

/-- `Test_IsDescSorted`, `/repo/sort_test.go:14-19`. -/
example : isDescSorted ([] : List Int) = .ret true ∧ isDescSorted [(1 : Int), 2, 3, 4] = .ret false ∧ isDescSorted [(1 : Int), 2, 2, 3, 4] = .ret false ∧
    isDescSorted [(5 : Int), 4, 3, 3, 2] = .ret true := by decide +kernel

/-- A test of the sorting functions: `xs` is sorted by `sort` and then passes the check (as in `/repo/sort_test.go:21-25`). -/
def sortTest (xs : List Int) (sort : Sl → GoM (Mem Int) Unit) (check : List Int → Outcome Bool) : GoM (Mem Int) Unit := do
  let a ← Sl.lit xs
  sort a
  let l ← a.load
  let b ← call (check l)
  expectTrue b

/-- `greater`, `/repo/sort_test.go:45`. -/
def greater (x y : Int) : Bool := decide (y < x)

/-- `Test_Sort` to `Test_StableSortFunc`, `/repo/sort_test.go:21-57`. -/
example : passes (sortTest [5, 4, 3, 2, 1] (sortAsc insertionProg) isSorted) noMem = true ∧
    passes (sortTest [1, 2, 3, 4] (descSort insertionProg) isDescSorted) noMem = true ∧
    passes (sortTest [5, 4, 3, 2, 1] (stableSort insertionProg) isSorted) noMem = true ∧
    passes (sortTest [1, 2, 3, 4, 5] (descStableSort insertionProg) isDescSorted) noMem = true ∧
    passes (sortTest [1, 2, 3, 4, 5] (fun a => sortFunc insertionProg a greater) isDescSorted) noMem = true ∧
    passes (sortTest [1, 2, 3, 4, 5] (fun a => stableSortFunc insertionProg a greater) isDescSorted) noMem = true := by decide +kernel

/-! ## `/repo/heap_test.go` -/

/-- `TestMakeMinHeap`, `/repo/heap_test.go:7-12`. -/
example : isMinHeap [(5 : Int), 4, 3, 2, 1] = .ret false ∧ (makeMinHeap [(5 : Int), 4, 3, 2, 1] >>= isMinHeap) = .ret true := by decide +kernel

/-- `TestIsMinHeap`, `/repo/heap_test.go:14-19`. -/
example : isMinHeap ([] : List Int) = .ret true ∧ isMinHeap [(1 : Int)] = .ret true := by decide +kernel

/-- `TestMakeHeapFunc`, `/repo/heap_test.go:21-26`. -/
example : isHeapFunc [(1 : Int), 2, 3, 4, 5] greaterF = .ret false ∧
    (makeHeapFunc [(1 : Int), 2, 3, 4, 5] greaterF >>= fun h => isHeapFunc h greaterF) = .ret true := by decide +kernel

/-- `Test_MinHeap_PushPop`, `/repo/heap_test.go:28-33`. -/
example : passes (do
    let h ← call (pushMinHeap [] (1 : Int))
    let r ← call (popMinHeap h)
    expectEq r.1 1
    let b ← call (isMinHeap r.2)
    expectTrue b) () = true := by decide +kernel

/-- `Test_HeapFunc_PushPop`, `/repo/heap_test.go:35-42`. -/
example : passes (do
    let h ← call (pushHeapFunc [] (1 : Int) greaterF)
    let b ← call (isHeapFunc h greaterF)
    expectTrue b
    let r ← call (popHeapFunc h greaterF)
    expectEq r.1 1
    let b ← call (isHeapFunc r.2 greaterF)
    expectTrue b) () = true := by decide +kernel

/-- `Test_MinHeap_Remove`, `/repo/heap_test.go:44-49`. -/
example : passes (do
    let h ← call (makeMinHeap [(5 : Int), 4, 3, 2, 1])
    let r ← call (removeMinHeap h 1)
    let b ← call (isMinHeap r.2)
    expectTrue b) () = true := by decide +kernel

/-- `Test_HeapFunc_Remove`, `/repo/heap_test.go:51-57`. -/
example : passes (do
    let h ← call (makeHeapFunc [(1 : Int), 2, 3, 4, 5] greaterF)
    let r ← call (removeHeapFunc h 1 greaterF)
    let b ← call (isHeapFunc r.2 greaterF)
    expectTrue b) () = true := by decide +kernel

end Stl4go.Tests
