import Verif.Tests.Harness
import Verif.Model.BuiltinSet
import Verif.Model.Strings
/-!
# The tests of `/repo/builtin_set_test.go`, run on the model

Not transcribed: `Test_BuiltinSet_Interface`, whose only content is that something compiles. Maps are iterated in the order of their list here; the
expectations of the tests do not depend on the order.
-/
namespace Stl4go.Tests

/-- A program without maps (`/repo/builtin_set_test.go:15`). -/
def noMaps {K : Type} : MWorld K := { maps := fun _ => [], next := 0, loops := 0 }

/-- A runtime that iterates in the order of the list (`/repo/builtin_set_test.go:107`). -/
def inOrder {K : Type} : MapRt K := { order := fun _ l => l, replace := false }

section Strings

/-- `expectEq(t, s.Len(), n)`, as in `/repo/builtin_set_test.go:16`. -/
def expectCount {K : Type} (s : MRef) (n : Int) : GoM (MWorld K) Unit := do let k ← bsLen s; expectEq k n

/-- `expectEq(t, s.Has(k), b)`, as in `/repo/builtin_set_test.go:51`. -/
def expectHas {K : Type} [GoEq K] (s : MRef) (k : K) (b : Bool) : GoM (MWorld K) Unit := do let r ← bsHas s k; expectEq r b

/-- `expectEq(t, s.IsEmpty(), b)`, as in `/repo/builtin_set_test.go:17`. -/
def expectEmpty {K : Type} (s : MRef) (b : Bool) : GoM (MWorld K) Unit := do let r ← bsIsEmpty s; expectEq r b

/-- `SetOf("hello", "world")`, as in `/repo/builtin_set_test.go:27`. -/
def helloWorld : GoM (MWorld String) MRef := bsSetOf inOrder ["hello", "world"]

/-- `Test_MakeBuiltinSet` and `Test_MakeBuiltinSet2`, `/repo/builtin_set_test.go:14-24`. -/
example : passes (do let s ← mapMake; expectCount s 0; expectEmpty s true) (noMaps : MWorld String) = true := by decide +kernel

/-- `Test_SetOf`, `/repo/builtin_set_test.go:26-29`. -/
example : passes (do let s ← helloWorld; expectCount s 2) noMaps = true := by decide +kernel

/-- `Test_BuiltinSet_IsEmpty`, `/repo/builtin_set_test.go:31-36`. -/
example : passes (do
    let s ← mapMake
    expectEmpty s true
    let _ ← bsInsert inOrder s "hello"
    expectEmpty s false) noMaps = true := by decide +kernel

/-- `Test_BuiltinSet_Clear`, `/repo/builtin_set_test.go:38-42`. -/
example : passes (do
    let s ← helloWorld
    bsClear inOrder s
    expectEmpty s true) noMaps = true := by decide +kernel

/-- `Test_BuiltinSet_String`, `/repo/builtin_set_test.go:44-47`. -/
example : passes (do
    let s ← helloWorld
    let r ← bsString inOrder "*string".toList String.toList s
    expectTrue ("BuiltinSet[string]".toList.isPrefixOf (r.getD []))) noMaps = true := by decide +kernel

/-- `Test_BuiltinSet_Has`, `/repo/builtin_set_test.go:49-54`. -/
example : passes (do
    let s ← helloWorld
    expectHas s "hello" true
    expectHas s "world" true
    expectHas s "!" false) noMaps = true := by decide +kernel

/-- `Test_BuiltinSet_Insert`, `/repo/builtin_set_test.go:56-64`. -/
example : passes (do
    let s ← mapMake
    let b ← bsInsert inOrder s "hello"
    expectTrue b
    let b ← bsInsert inOrder s "hello"
    expectFalse b
    expectHas s "world" false
    let b ← bsInsert inOrder s "world"
    expectTrue b
    expectHas s "hello" true
    expectCount s 2) noMaps = true := by decide +kernel

/-- `Test_BuiltinSet_InsertN`, `/repo/builtin_set_test.go:66-70`. -/
example : passes (do
    let s ← mapMake
    let n ← bsInsertN inOrder s ["hello", "world"]
    expectEq n 2
    expectCount s 2) noMaps = true := by decide +kernel

/-- `Test_BuiltinSet_Remove`, `/repo/builtin_set_test.go:72-80`. -/
example : passes (do
    let s ← helloWorld
    let b ← bsRemove s "hello"
    expectTrue b
    expectCount s 1
    let b ← bsRemove s "hello"
    expectFalse b
    expectCount s 1
    let b ← bsRemove s "world"
    expectTrue b
    expectCount s 0) noMaps = true := by decide +kernel

/-- `Test_BuiltinSet_Delete`, `/repo/builtin_set_test.go:82-90`. -/
example : passes (do
    let s ← helloWorld
    bsDelete s "hello"
    expectCount s 1
    bsDelete s "hello"
    expectCount s 1
    bsDelete s "world"
    expectCount s 0) noMaps = true := by decide +kernel

/-- `Test_BuiltinSet_RemoveN`, `/repo/builtin_set_test.go:92-97`. -/
example : passes (do
    let s ← helloWorld
    let n ← bsRemoveN s ["hello", "world"]
    expectEq n 2
    let b ← bsRemove s "world"
    expectFalse b
    expectEmpty s true) noMaps = true := by decide +kernel

/-- `Test_BuiltinSet_Keys`, `/repo/builtin_set_test.go:99-103`. -/
example : passes (do let s ← helloWorld; let ks ← bsKeys inOrder s; expectEq 2 ks.length) noMaps = true := by decide +kernel

/-- `Test_BuiltinSet_For`, `/repo/builtin_set_test.go:105-110`. -/
example : passes (do
    let s ← helloWorld
    let ks ← mapRange inOrder s
    expectTrue (ks.all (fun v => v == "hello" || v == "world"))) noMaps = true := by decide +kernel

/-- `Test_BuiltinSet_ForEach`, `/repo/builtin_set_test.go:112-119`. -/
example : passes (do
    let s ← helloWorld
    let c ← bsForEach inOrder s (fun (c : Int) _ => c + 1) 0
    expectEq c 2) noMaps = true := by decide +kernel

/-- `Test_BuiltinSet_ForEachIf`, `/repo/builtin_set_test.go:121-129`. -/
example : passes (do
    let s ← helloWorld
    let c ← bsForEachIf inOrder s (fun (c : Int) _ => (c + 1, false)) 0
    expectTrue (decide (c < 2))) noMaps = true := by decide +kernel

end Strings

/-- `SetOf` of numbers, as in `/repo/builtin_set_test.go:132`. -/
def setOf (l : List Int) : GoM (MWorld Int) MRef := bsSetOf inOrder l

/-- `Test_BuiltinSet_Update`, `/repo/builtin_set_test.go:131-136`. -/
example : passes (do
    let s ← setOf [1, 2, 3]
    let o ← setOf [3, 4]
    bsUpdate inOrder s o
    expectCount s 4
    expectHas s 4 true) noMaps = true := by decide +kernel

/-- `Test_BuiltinSet_Union`, `/repo/builtin_set_test.go:138-143`. -/
example : passes (do
    let s ← setOf [1, 2, 3]
    let o ← setOf [3, 4]
    let s2 ← bsUnion inOrder s o
    expectCount s2 4
    expectHas s2 4 true) noMaps = true := by decide +kernel

/-- `Test_BuiltinSet_Intersection`, `/repo/builtin_set_test.go:145-152`. -/
example : passes (do
    let a ← setOf [1, 2, 3]
    let b ← setOf [3, 4]
    let s ← bsIntersection inOrder a b
    expectCount s 1
    expectHas s 3 true
    let a ← setOf [3, 4]
    let b ← setOf [1, 2, 3]
    let s ← bsIntersection inOrder a b
    expectCount s 1
    expectHas s 3 true) noMaps = true := by decide +kernel

/-- `Test_BuiltinSet_Difference`, `/repo/builtin_set_test.go:154-163`. -/
example : passes (do
    let a ← setOf [1, 2, 3]
    let b ← setOf [3, 4]
    let s ← bsDifference inOrder a b
    expectCount s 2
    expectHas s 1 true
    expectHas s 2 true
    let a ← setOf [1, 2]
    let b ← setOf [3, 4]
    let s ← bsDifference inOrder a b
    expectCount s 2
    expectHas s 1 true
    expectHas s 2 true) noMaps = true := by decide +kernel

/-- A question about two sets, as in `/repo/builtin_set_test.go:168`. -/
def expectSays (ask : MRef → MRef → GoM (MWorld Int) Bool) (x y : List Int) (r : Bool) : GoM (MWorld Int) Unit := do
  let a ← setOf x
  let b ← setOf y
  let q ← ask a b
  expectEq q r

/-- `Test_BuiltinSet_IsDisjointOf`, `/repo/builtin_set_test.go:165-170`. -/
example : passes (do
    expectSays (bsIsDisjointOf inOrder) [1, 2, 3] [3, 4] false
    expectSays (bsIsDisjointOf inOrder) [1, 2, 3] [4, 5] true) noMaps = true := by decide +kernel

/-- `Test_BuiltinSet_IsSubsetOf`, `/repo/builtin_set_test.go:172-179`. -/
example : passes (do
    expectSays (bsIsSubsetOf inOrder) [] [] true
    expectSays (bsIsSubsetOf inOrder) [] [1] true
    expectSays (bsIsSubsetOf inOrder) [1, 2, 3] [1, 2, 3] true
    expectSays (bsIsSubsetOf inOrder) [1, 2] [1, 2, 3] true
    expectSays (bsIsSubsetOf inOrder) [1, 2, 3] [1, 2] false
    expectSays (bsIsSubsetOf inOrder) [1, 2] [2, 3] false) noMaps = true := by decide +kernel

/-- `Test_BuiltinSet_IsSupersetOf`, `/repo/builtin_set_test.go:181-188`. -/
example : passes (do
    expectSays (bsIsSupersetOf inOrder) [] [] true
    expectSays (bsIsSupersetOf inOrder) [1] [] true
    expectSays (bsIsSupersetOf inOrder) [1, 2, 3] [1, 2, 3] true
    expectSays (bsIsSupersetOf inOrder) [1, 2, 3] [1, 2] true
    expectSays (bsIsSupersetOf inOrder) [1, 2] [1, 2, 3] false
    expectSays (bsIsSupersetOf inOrder) [1, 2] [2, 3] false) noMaps = true := by decide +kernel

end Stl4go.Tests
