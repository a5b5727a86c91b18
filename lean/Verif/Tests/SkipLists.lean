import Verif.Tests.Harness
import Verif.Model.Compare
import Verif.Model.Lookup
import Verif.Model.SkipListSet
import Verif.Model.Sort
import Verif.Model.SortAny
import Verif.Spec.Nan
/-!
# The tests of `/repo/skiplist_test.go` and `/repo/skiplist_set_test.go`, run on the model

Not transcribed: tests whose only content is that something compiles (`TestSkipList_Interface`, `TestNewSkipList_Interface`), and
`TestSkipList_level`, which is about the average of many random lists (C144 is about it). The draws of the generator are `draw` here; the tests
that seed the generator do not depend on the draws, except that `TestSkipList_Remove_Level` needs some high nodes.
-/
namespace Stl4go.Tests
variable {K V α : Type}

/-- The draw for the `i`-th insertion (`/repo/skiplist_test.go:172`): the levels drawn are 1, 2, 1, 3, 1, 2, 1, 4, and so on. -/
def draw (i : Nat) : Nat := 2 ^ 39 / Nat.gcd (i + 1) (2 ^ 20)

/-- A variable that holds a skip list, and the number of draws so far (`/repo/skiplist_test.go:17`). -/
structure SLT (K V : Type) where
  sl : SL K V := newSkipList
  draws : Nat := 0

/-- A call that only reads the list, as in `/repo/skiplist_test.go:19`. -/
def SLT.ask (f : SL K V → Outcome α) : GoM (SLT K V) α := fun s => call (f s.sl) s

/-- A call that changes the list, as in `/repo/skiplist_test.go:182`. -/
def SLT.change (f : SL K V → Outcome (SL K V × α)) : GoM (SLT K V) α := fun s =>
  match f s.sl with
  | .ret r => .ok r.2 { s with sl := r.1 }
  | .panic => .panic s
  | .diverge => .diverge

/-- `sl.Insert(k, v)`, as in `/repo/skiplist_test.go:18`. -/
def SLT.insert (impl : SLImpl K) (k : K) (v : V) : GoM (SLT K V) Unit := fun s =>
  match s.sl.insert impl (draw s.draws) k v with
  | .ret sl => .ok () { sl := sl, draws := s.draws + 1 }
  | .panic => .panic s
  | .diverge => .diverge

/-- `sl.Remove(k)`, as in `/repo/skiplist_test.go:182`. -/
def SLT.remove (impl : SLImpl K) (k : K) : GoM (SLT K V) Bool := SLT.change (fun sl => sl.remove impl k)

/-- `expectEq(t, sl.Len(), n)`, as in `/repo/skiplist_test.go:67`. -/
def SLT.expectLen (n : Int) : GoM (SLT K V) Unit := do let k ← SLT.ask (fun sl => .ret sl.length); expectEq k n

/-- `expectEq(t, sl.Has(k), b)`, as in `/repo/skiplist_test.go:19`. -/
def SLT.expectHas (impl : SLImpl K) (k : K) (b : Bool) : GoM (SLT K V) Unit := do let r ← SLT.ask (fun sl => sl.has impl k); expectEq r b

/-- `*sl.Find(k)`, nil if there is none, as in `/repo/skiplist_test.go:20`. -/
def SLT.found (impl : SLImpl K) (k : K) : GoM (SLT K V) (Option V) := SLT.ask (fun sl => do
  match ← sl.find impl k with
  | none => return none
  | some p => return some (← sl.readPtr p))

/-- `expectEq(t, *sl.Find(k), v)`, or `expectEq(t, sl.Find(k), nil)`, as in `/repo/skiplist_test.go:20`. -/
def SLT.expectFound [DecidableEq V] (impl : SLImpl K) (k : K) (v : Option V) : GoM (SLT K V) Unit := do
  let r ← SLT.found impl k
  expectEq r v

/-- `NewSkipList[K, V]` and `NewSkipListFunc` (`/repo/skiplist_test.go:17`, `/repo/skiplist_test.go:62`): a new list, and the two ways to compare. -/
def fresh : SLT K V := {}
/-- See `fresh`. -/
def byOrder [ord : GoOrd K] : SLImpl K := .ordered ord

/-! ## `/repo/skiplist_test.go` -/

/-- `TestNewSkipListString`, `/repo/skiplist_test.go:16-23`. -/
example : passes (do
    SLT.insert byOrder "hello" (1 : Int)
    SLT.expectHas byOrder "hello" true
    SLT.expectFound byOrder "hello" (some 1)
    SLT.expectHas byOrder "world" false
    SLT.expectFound byOrder "world" none) fresh = true := by decide +kernel

/-- `testNewSkipListType`, `/repo/skiplist_test.go:25-33`, for keys `n` and `n+1`. -/
def testNewSkipListType [GoOrd K] (n n1 : K) : GoM (SLT K Int) Unit := do
  SLT.insert byOrder n (1 : Int)
  SLT.expectHas byOrder n true
  SLT.expectFound byOrder n (some 1)
  SLT.expectHas byOrder n1 false
  SLT.expectFound byOrder n1 none

/-- `TestNewSkipListInt8`, `TestNewSkipListInt16`, `TestNewSkipListInt32`, `TestNewSkipListInt64`, `TestNewSkipListUInt8`, `TestNewSkipListUInt16`,
`TestNewSkipListUInt32`, `TestNewSkipListUInt64` and `TestNewSkipListUIntPtr`, `/repo/skiplist_test.go:35-45`: the integers 1 and 2. -/
example : passes (testNewSkipListType (1 : Int) 2) fresh = true := by decide +kernel

/-- `TestNewSkipListFloat32` and `TestNewSkipListFloat64`, `/repo/skiplist_test.go:47-48`: the floats 1 and 2. -/
example : passes (testNewSkipListType (Flt.fin Flt.one) (Flt.fin (2 * Flt.one))) fresh = true := by decide +kernel

/-- `Person`, `/repo/skiplist_test.go:51-54`. -/
structure Person where
  name : String
  age : Int
deriving DecidableEq

/-- `personCmp`, `/repo/skiplist_test.go:55-61`. -/
def personCmp (a b : Person) : Int :=
  let r := orderedCompare a.age b.age
  if r ≠ 0 then r else orderedCompare a.name b.name

/-- `sl.ForEach` that collects the keys, as in `/repo/skiplist_test.go:74-76`. -/
def SLT.keys : GoM (SLT K V) (List K) := SLT.ask (fun sl => do
  let r ← SL.forEach (fun s k _ => .ret (s.1, s.2 ++ [k])) (sl, [])
  return r.2)

/-- `TestNewSkipListFunc`, `/repo/skiplist_test.go:50-86`. -/
example : passes (do
    let cmp : SLImpl Person := .func personCmp
    SLT.insert cmp ⟨"zhangsan", 20⟩ (1 : Int)
    SLT.insert cmp ⟨"lisi", 20⟩ 1
    SLT.insert cmp ⟨"wangwu", 30⟩ 1
    SLT.expectHas cmp ⟨"zhangsan", 20⟩ true
    SLT.expectHas cmp ⟨"zhangsan", 30⟩ false
    SLT.expectLen 3
    SLT.insert cmp ⟨"zhangsan", 20⟩ 1
    SLT.expectLen 3
    let ps ← SLT.keys
    expectEq (ps.map Person.name) ["lisi", "zhangsan", "wangwu"]
    let _ ← SLT.remove cmp ⟨"zhangsan", 20⟩
    SLT.expectLen 2
    let _ ← SLT.remove cmp ⟨"zhaoliu", 40⟩
    SLT.expectLen 2) fresh = true := by decide +kernel

/-- `NewSkipListFromMap(m)` for a map that is iterated in the order `m`, as in `/repo/skiplist_test.go:90`. -/
def fromMap (m : List (Int × Int)) : GoM (SLT Int Int) Unit := fun s =>
  match newSkipListFromMap (m.map (fun e => (draw e.1.toNat, e.1, e.2))) with
  | .ret sl => .ok () { s with sl := sl }
  | .panic => .panic s
  | .diverge => .diverge

/-- `TestNewSkipListFromMap`, `/repo/skiplist_test.go:88-94`, in two orders of iteration. -/
example : (∀ m ∈ [[((1 : Int), (-1 : Int)), (2, -2), (3, -3)], [(3, -3), (1, -1), (2, -2)]], passes (do
    fromMap m
    [(1 : Int), 2, 3].forM (fun k => SLT.expectHas byOrder k true)) fresh = true) := by decide +kernel

/-- `newSkipListN(n)`, `/repo/skiplist_test.go:170-177`. -/
def newSkipListN (n : Nat) : GoM (SLT Int Int) Unit := (List.range n).forM (fun i => SLT.insert byOrder (i : Int) i)

/-- `TestSkipList_Iterate` and `TestNewSkipList_Iterate`, `/repo/skiplist_test.go:96-105`, `/repo/skiplist_set_test.go:85-94`; `*it.Pointer()` is `it.Value()`. -/
example : passes (do
    newSkipListN 10
    let l ← SLT.ask (fun sl => sl.iterate >>= SLIter.collect sl 20)
    expectEq l (([0, 1, 2, 3, 4, 5, 6, 7, 8, 9] : List Int).map (fun i => (i, i)))) fresh = true := by decide +kernel

/-- `expectEq(t, sl.LowerBound(k).Key(), x)`, or `expectFalse(t, sl.LowerBound(k).IsNotEnd())` for `none`, as in `/repo/skiplist_test.go:109-112`. -/
def expectBound (bound : SL Int Int → Outcome SLIter) (x : Option Int) : GoM (SLT Int Int) Unit := do
  let it ← SLT.ask bound
  match x with
  | some x => do
    let k ← SLT.ask it.key
    expectEq k x
  | none => expectFalse it.isNotEnd

/-- `testSkipListIterater`, `/repo/skiplist_test.go:107-129`. -/
def testSkipListIterater (impl : SLImpl Int) : GoM (SLT Int Int) Unit := do
  expectBound (fun sl => sl.lowerBoundIter impl 1) (some 1)
  expectBound (fun sl => sl.lowerBoundIter impl 3) (some 4)
  expectBound (fun sl => sl.lowerBoundIter impl 4) (some 4)
  expectBound (fun sl => sl.lowerBoundIter impl 5) none
  expectBound (fun sl => sl.upperBoundIter impl 0) (some 1)
  expectBound (fun sl => sl.upperBoundIter impl 1) (some 2)
  expectBound (fun sl => sl.upperBoundIter impl 3) (some 4)
  expectBound (fun sl => sl.upperBoundIter impl 4) none
  expectBound (fun sl => sl.upperBoundIter impl 5) none
  let it ← SLT.ask (fun sl => sl.findRange impl 1 3)
  let k ← SLT.ask it.key
  expectEq k 1
  let it ← SLT.ask it.moveToNext
  let k ← SLT.ask it.key
  expectEq k 2

/-- `TestSkipList_Iterater`, `/repo/skiplist_test.go:131-134`. -/
example : passes (do fromMap [(1, 1), (2, 2), (4, 4)]; testSkipListIterater byOrder) fresh = true := by decide +kernel

/-- `TestSkipList_Func_Iterater`, `/repo/skiplist_test.go:136-143`. -/
example : passes (do
    [(2 : Int), 4, 1].forM (fun k => SLT.insert (.func orderedCompare) k k)
    testSkipListIterater (.func orderedCompare)) fresh = true := by decide +kernel

/-- `TestSkipList_Insert`, `/repo/skiplist_test.go:144-151`. -/
example : passes ((List.range 100).forM (fun i => do
    SLT.expectLen (i : Int)
    SLT.insert byOrder (i : Int) (i : Int)
    SLT.expectLen (i + 1))) fresh = true := by decide +kernel

/-- `TestSkipList_Insert_Reverse`, `/repo/skiplist_test.go:153-160`. -/
example : passes ((List.range 100).forM (fun i => do
    let oldlen ← SLT.ask (fun sl => .ret sl.length)
    SLT.insert byOrder (100 - i : Int) (100 - i : Int)
    SLT.expectLen (oldlen + 1))) fresh = true := by decide +kernel

/-- `TestSkipList_Insert_Dup`, `/repo/skiplist_test.go:162-168`. -/
example : passes (do
    SLT.insert byOrder (1 : Int) (1 : Int)
    SLT.expectLen 1
    SLT.insert byOrder 1 2
    SLT.expectLen 1) fresh = true := by decide +kernel

/-- `for i := 0; i < 100; i++ { sl.Remove(i) }`, `/repo/skiplist_test.go:181-183`. -/
def removeHundred : GoM (SLT Int Int) Unit := (List.range 100).forM (fun i => do let _ ← SLT.remove byOrder (i : Int))

/-- `TestSkipList_Remove` and `TestSkipList_Remove_Level`, `/repo/skiplist_test.go:179-186`, `/repo/skiplist_test.go:197-204`. -/
example : passes (do
    newSkipListN 100
    let l ← SLT.ask (fun sl => .ret sl.level)
    expectTrue (decide (4 ≤ l))
    removeHundred
    let b ← SLT.ask (fun sl => .ret sl.isEmpty)
    expectTrue b
    SLT.expectLen 0
    let l ← SLT.ask (fun sl => .ret sl.level)
    expectEq l 1) fresh = true := by decide +kernel

/-- `TestSkipList_Remove_Nonexist`, `/repo/skiplist_test.go:188-195`. -/
example : passes (do
    SLT.insert byOrder (1 : Int) (1 : Int)
    SLT.insert byOrder 2 2
    let _ ← SLT.remove byOrder 0
    let _ ← SLT.remove byOrder 3
    SLT.expectLen 2) fresh = true := by decide +kernel

/-- `TestSkipList_Clean`, `/repo/skiplist_test.go:206-216`. -/
example : passes (do
    newSkipListN 100
    SLT.change (fun sl => .ret (sl.clear, ()))
    let b ← SLT.ask (fun sl => .ret sl.isEmpty)
    expectTrue b
    SLT.expectLen 0
    let l ← SLT.ask (fun sl => .ret sl.level)
    expectEq l 1) fresh = true := by decide +kernel

/-- `len(node.next)` of a new node of some level (`/repo/skiplist_test.go:232-233`). -/
def newNodeLevels (level : Nat) : GoM (SLT Int Int) Nat := SLT.ask (fun sl => do
  let r ← sl.newNode level 1 1
  let n ← r.1.deref r.2
  return n.next.length)

/-- `TestSkipList_newnode`, `/repo/skiplist_test.go:230-237`. -/
example : passes (do
    (List.range skipListMaxLevel).forM (fun i => do let n ← newNodeLevels (i + 1); expectEq n (i + 1))
    expectPanic (newNodeLevels 0)
    expectPanic (newNodeLevels (skipListMaxLevel + 1))) fresh = true := by decide +kernel

/-- `TestSkipList_Find`, `/repo/skiplist_test.go:239-246`. -/
example : passes (do
    newSkipListN 100
    (List.range 100).forM (fun i => SLT.expectFound byOrder (i : Int) (some (i : Int)))
    SLT.expectFound byOrder 100 none) fresh = true := by decide +kernel

/-- `TestSkipList_Has`, `/repo/skiplist_test.go:248-253`. -/
example : passes (do
    SLT.expectHas byOrder (1 : Int) false
    SLT.insert byOrder 1 (2 : Int)
    SLT.expectHas byOrder 1 true) fresh = true := by decide +kernel

/-- `TestSkipList_ForEach`, `/repo/skiplist_test.go:255-263`. -/
example : passes (do
    newSkipListN 100
    let a ← SLT.keys
    expectEq a.length 100
    let b ← call (isSorted a)
    expectTrue b) fresh = true := by decide +kernel

/-- `TestSkipList_ForEachIf`, `/repo/skiplist_test.go:265-276`. -/
example : passes (do
    newSkipListN 100
    let a ← SLT.ask (fun sl => do
      let r ← SL.forEachIf (fun s k _ => .ret (if k < 50 then ((s.1, s.2 ++ [k]), true) else (s, false))) (sl, [])
      return r.2)
    let m ← call (maxN a)
    expectTrue (decide (m < 50))) fresh = true := by decide +kernel

/-- `TestSkipList_ForEachMutable`, `/repo/skiplist_test.go:278-286`. -/
example : passes (do
    newSkipListN 100
    SLT.change (fun sl => SL.forEachMutable (fun s _ p => do
      let v ← s.1.readPtr p
      let sl ← s.1.setValue p (-v)
      return (sl, ())) (sl, ()))
    (List.range 100).forM (fun i => SLT.expectFound byOrder (i : Int) (some (-i : Int)))) fresh = true := by decide +kernel

/-- `TestSkipList_ForEachMutableIf`, `/repo/skiplist_test.go:288-299`. -/
example : passes (do
    newSkipListN 100
    SLT.change (fun sl => SL.forEachMutableIf (fun s k p =>
      if k > 50 then do
        let sl ← s.1.setValue p 0
        return ((sl, ()), false)
      else return (s, true)) (sl, ()))
    SLT.expectFound byOrder 51 (some 0)) fresh = true := by decide +kernel

/-! ## `/repo/skiplist_set_test.go` -/

/-- `NewSkipListSet[int]()` and `NewSkipListSetFunc(OrderedCompare[int])` (`/repo/skiplist_set_test.go:13`, `/repo/skiplist_set_test.go:24`). -/
def fresh1 : SLT Int Unit := { sl := newSkipListSet }

/-- The arguments of a call of `InsertN` with a draw for each, as in `/repo/skiplist_set_test.go:25`. -/
def drawn (l : List Int) : List (Nat × Int) := l.map (fun k => (draw k.toNat, k))

/-- `NewSkipListSetOf(...)`, as in `/repo/skiplist_set_test.go:19`. -/
def setOfSL (l : List Int) : GoM (SLT Int Unit) Unit := SLT.change (fun _ => do return (← newSkipListSetOf (drawn l), ()))

/-- `expectTrue(t, Equal(s.Keys(), []int{...}))`, as in `/repo/skiplist_set_test.go:20`. -/
def expectKeys (l : List Int) : GoM (SLT Int Unit) Unit := do let ks ← SLT.ask SLSet.keys; expectEq ks l

/-- `expectEq(t, s.IsEmpty(), b)` and `expectEq(t, s.Len(), n)`, as in `/repo/skiplist_set_test.go:14-15`. -/
def expectSetSize (b : Bool) (n : Int) : GoM (SLT Int Unit) Unit := do
  let e ← SLT.ask (fun s => .ret (SLSet.isEmpty s))
  expectEq e b
  let k ← SLT.ask (fun s => .ret (SLSet.length s))
  expectEq k n

/-- `TestNewSkipListSet`, `/repo/skiplist_set_test.go:12-16`. -/
example : passes (expectSetSize true 0) fresh1 = true := by decide +kernel

/-- `TestNewSkipListSetOf`, `/repo/skiplist_set_test.go:18-21`. -/
example : passes (do setOfSL [1, 2, 3, 4, 5]; expectKeys [1, 2, 3, 4, 5]) fresh1 = true := by decide +kernel

/-- `TestNewSkipListSetFunc`, `/repo/skiplist_set_test.go:23-27`. -/
example : passes (do
    let _ ← SLT.change (fun s => SLSet.insertN (.func orderedCompare) s (drawn [1, 2, 3, 4, 5]))
    expectKeys [1, 2, 3, 4, 5]) fresh1 = true := by decide +kernel

/-- `expectEq(t, s.Insert(k), b)`, as in `/repo/skiplist_set_test.go:35`. -/
def expectInsert (k : Int) (b : Bool) : GoM (SLT Int Unit) Unit := do
  let r ← SLT.change (fun s => SLSet.insert byOrder (draw k.toNat) s k)
  expectEq r b

/-- `expectEq(t, s.Remove(k), b)`, as in `/repo/skiplist_set_test.go:32`. -/
def expectRemove (k : Int) (b : Bool) : GoM (SLT Int Unit) Unit := do
  let r ← SLT.change (fun s => SLSet.remove byOrder s k)
  expectEq r b

/-- `expectEq(t, s.Has(k), b)`, as in `/repo/skiplist_set_test.go:33`. -/
def expectMember (k : Int) (b : Bool) : GoM (SLT Int Unit) Unit := do
  let r ← SLT.ask (fun s => SLSet.has byOrder s k)
  expectEq r b

/-- `TestNewSkipListSet_Insert_Remove_Has`, `/repo/skiplist_set_test.go:29-47`. -/
example : passes (do
    expectRemove 1 false
    expectMember 1 false
    expectInsert 1 true
    expectInsert 1 false
    expectMember 1 true
    expectSetSize false 1
    expectRemove 1 true
    expectRemove 1 false
    expectMember 1 false
    expectSetSize true 0) fresh1 = true := by decide +kernel

/-- `TestNewSkipListSet_Clear`, `/repo/skiplist_set_test.go:49-54`. -/
example : passes (do
    setOfSL [1, 2, 3, 4, 5]
    SLT.change (fun s => .ret (SLSet.clear s, ()))
    expectSetSize true 0) fresh1 = true := by decide +kernel

/-- `TestNewSkipListSet_InsertN`, `/repo/skiplist_set_test.go:56-61`. -/
example : passes (do
    let n ← SLT.change (fun s => SLSet.insertN byOrder s (drawn [1, 2, 3, 1]))
    expectEq n 3
    expectSetSize false 3) fresh1 = true := by decide +kernel

/-- `TestNewSkipListSet_RemoveN`, `/repo/skiplist_set_test.go:63-69`. -/
example : passes (do
    setOfSL [1, 2, 3, 4]
    let n ← SLT.change (fun s => SLSet.removeN byOrder s [2, 4, 6])
    expectEq n 2
    expectSetSize false 2
    expectKeys [1, 3]) fresh1 = true := by decide +kernel

/-- `TestNewSkipListSet_ForEach`, `/repo/skiplist_set_test.go:71-76`. -/
example : passes (do
    setOfSL [1, 2, 3, 4]
    let a ← SLT.ask (fun s => do
      let r ← SLSet.forEach (fun t k => .ret (t.1, t.2 ++ [k])) (s, [])
      return r.2)
    expectEq a [1, 2, 3, 4]) fresh1 = true := by decide +kernel

/-- `TestNewSkipListSet_ForEachIf`, `/repo/skiplist_set_test.go:78-83`. -/
example : passes (do
    setOfSL [1, 2, 3, 4]
    let a ← SLT.ask (fun s => do
      let r ← SLSet.forEachIf (fun t k => .ret ((t.1, t.2 ++ [k]), decide (k < 2))) (s, [])
      return r.2)
    expectEq a [1, 2]) fresh1 = true := by decide +kernel

/-- `expectEq(t, s.LowerBound(k).Value(), x)`, or `expectFalse(t, s.LowerBound(k).IsNotEnd())` for `none`, as in `/repo/skiplist_set_test.go:99-102`. -/
def expectSetBound (bound : SLSet Int → Outcome SLIter) (x : Option Int) : GoM (SLT Int Unit) Unit := do
  let it ← SLT.ask bound
  match x with
  | some x => do
    let k ← SLT.ask (fun s => SLIter.setValue s it)
    expectEq k x
  | none => expectFalse it.setIsNotEnd

/-- `TestSkipListSet_Iterater`, `/repo/skiplist_set_test.go:96-119`. -/
example : passes (do
    setOfSL [1, 2, 4]
    expectSetBound (fun s => SLSet.lowerBoundIter byOrder s 1) (some 1)
    expectSetBound (fun s => SLSet.lowerBoundIter byOrder s 3) (some 4)
    expectSetBound (fun s => SLSet.lowerBoundIter byOrder s 4) (some 4)
    expectSetBound (fun s => SLSet.lowerBoundIter byOrder s 5) none
    expectSetBound (fun s => SLSet.upperBoundIter byOrder s 0) (some 1)
    expectSetBound (fun s => SLSet.upperBoundIter byOrder s 1) (some 2)
    expectSetBound (fun s => SLSet.upperBoundIter byOrder s 3) (some 4)
    expectSetBound (fun s => SLSet.upperBoundIter byOrder s 4) none
    expectSetBound (fun s => SLSet.upperBoundIter byOrder s 5) none
    let it ← SLT.ask (fun s => SLSet.findRange byOrder s 1 3)
    let k ← SLT.ask (fun s => SLIter.setValue s it)
    expectEq k 1
    let it ← SLT.ask (fun s => SLIter.setMoveToNext s it)
    let k ← SLT.ask (fun s => SLIter.setValue s it)
    expectEq k 2) fresh1 = true := by decide +kernel

end Stl4go.Tests
