import Verif.Model.Basic
import Verif.Model.Lookup
/-!
# Model of `/repo/skiplist.go` and `/repo/skiplist_newnode.go`

Memory: `SL.nodes` is the list of all nodes ever allocated for the list, a node pointer is an index into it, nil is `none`.
Nodes are never freed (Go frees a node only when nothing can reach it any more, which cannot be observed).
`Ref` is a pointer that may also be `&sl.head`. Random numbers are an explicit argument of `insert`.
Not modelled: the memory layout of a node (`next` slice sharing an allocation with the node) and the seeding of the
generator. The zero value `SkipList{}` and struct copies are in `Model/SkipListCopy`.
-/
namespace Stl4go
variable {K V : Type}

/-- `skipListMaxLevel`, `/repo/skiplist.go:20`. -/
def skipListMaxLevel : Nat := 40

/-- `skipListNode`, `/repo/skiplist.go:206-210`. -/
structure SLNode (K V : Type) where
  key : K
  value : V
  next : List (Option Nat)
deriving DecidableEq, Repr

/-- A non-nil `*skipListNode` that may be `&sl.head` (`/repo/skiplist.go:292`) or an allocated node. -/
inductive Ref where
  | head
  | node (p : Nat)
deriving DecidableEq, Repr

/-- `SkipList`, `/repo/skiplist.go:28-37`, without the generator and `impl`. -/
structure SL (K V : Type) where
  level : Nat
  len : Int
  headNext : List (Option Nat)
  prevsCache : List (Option Ref)
  nodes : List (SLNode K V)
deriving DecidableEq, Repr

/-- Dynamic type of `impl`: `skipListOrdered` (`/repo/skiplist.go:280-282`) or `skipListFunc` (`376-379`). -/
inductive SLImpl (K : Type) where
  | ordered (ord : GoOrd K)
  | func (keyCmp : K → K → Int)

/-! ## Memory access -/

/-- `*p` for a node pointer, as in `cur.key`, `/repo/skiplist.go:295`. -/
def SL.deref (sl : SL K V) (p : Nat) : Outcome (SLNode K V) := idx sl.nodes p

/-- `r.next[i]`, as in `prev.next[i]`, `/repo/skiplist.go:294`. -/
def SL.nextAt (sl : SL K V) (r : Ref) (i : Nat) : Outcome (Option Nat) :=
  match r with
  | .head => idx sl.headNext i
  | .node p => do
    let n ← sl.deref p
    idx n.next i

/-- `r.next[i] = v`, as in `/repo/skiplist.go:106,112,162`. -/
def SL.setNextAt (sl : SL K V) (r : Ref) (i : Nat) (v : Option Nat) : Outcome (SL K V) :=
  match r with
  | .head => do
    let h ← setIdx sl.headNext i v
    return { sl with headNext := h }
  | .node p => do
    let n ← sl.deref p
    let nx ← setIdx n.next i v
    return { sl with nodes := sl.nodes.set p { n with next := nx } }

/-- `p.value = v`, `/repo/skiplist.go:96`. -/
def SL.setValue (sl : SL K V) (p : Nat) (v : V) : Outcome (SL K V) := do
  let n ← sl.deref p
  return { sl with nodes := sl.nodes.set p { n with value := v } }

/-! ## Construction -/

/-- `NewSkipList` / `NewSkipListFunc`, `/repo/skiplist.go:40-45,57-63`, with `init`, `253-259`. -/
def newSkipList : SL K V :=
  { level := 1, len := 0, headNext := List.replicate skipListMaxLevel none,
    prevsCache := List.replicate skipListMaxLevel none, nodes := [] }

/-- `newSkipListNode`, `/repo/skiplist_newnode.go:7-297`: the switch has one case for each level 1..40. -/
def SL.newNode (sl : SL K V) (level : Nat) (key : K) (value : V) : Outcome (SL K V × Nat) :=
  if 1 ≤ level ∧ level ≤ 40 then
    .ret ({ sl with nodes := sl.nodes ++ [{ key, value, next := List.replicate level none }] }, sl.nodes.length)
  else .panic

/-- `bits.Len64` of the standard library, used in `/repo/skiplist.go:264`: number of bits needed to represent `k`. -/
def bitsLen64 (k : Nat) : Nat := if k = 0 then 0 else Nat.log2 k + 1

/-- Loop of `randomLevel`, `/repo/skiplist.go:267-269`. -/
def randomLevelLoop (len : Int) : (fuel level : Nat) → Outcome Nat
  | 0, _ => .diverge
  | fuel + 1, level =>
    if level > 3 ∧ (2 ^ (level - 3) : Int) > len then randomLevelLoop len fuel (level - 1)
    else .ret level

/-- `randomLevel`, `/repo/skiplist.go:261-275`; `rnd` is the value returned by `sl.rander.Uint64()`. -/
def SL.randomLevel (sl : SL K V) (rnd : Nat) : Outcome Nat := do
  let total := 2 ^ skipListMaxLevel - 1
  let k := rnd &&& total
  let level := skipListMaxLevel - bitsLen64 k + 1
  let level ← randomLevelLoop sl.len (level + 1) level
  return if level > skipListMaxLevel then skipListMaxLevel else level

/-! ## Searching, ordered keys -/

/-- Inner loop of `skipListOrdered.doFindNode`, `/repo/skiplist.go:294-304`: `inl` is `return cur`, `inr` the new `prev`. -/
def SL.doFindNodeInner [GoOrd K] (sl : SL K V) (key : K) (i : Nat) :
    (fuel : Nat) → (prev : Ref) → (cur : Option Nat) → Outcome (Nat ⊕ Ref)
  | 0, _, _ => .diverge
  | _ + 1, prev, none => .ret (.inr prev)
  | fuel + 1, prev, some cur => do
    let n ← sl.deref cur
    if GoEq.eq n.key key then return .inl cur
    else if GoOrd.lt key n.key then return .inr prev
    else
      let nx ← idx n.next i
      SL.doFindNodeInner sl key i fuel (.node cur) nx

/-- Outer loop of `doFindNode`, `/repo/skiplist.go:293-305`; the first argument is `i+1`. -/
def SL.doFindNodeOuter [GoOrd K] (sl : SL K V) (key : K) : Nat → Ref → Outcome (Nat ⊕ Ref)
  | 0, prev => .ret (.inr prev)
  | i + 1, prev => do
    let cur ← sl.nextAt prev i
    match ← sl.doFindNodeInner key i (sl.nodes.length + 1) prev cur with
    | .inl p => return .inl p
    | .inr prev => SL.doFindNodeOuter sl key i prev

/-- `skipListOrdered.doFindNode`, `/repo/skiplist.go:288-310`. -/
def SL.doFindNode [GoOrd K] (sl : SL K V) (key : K) (eq : Bool) : Outcome (Option Nat) := do
  match ← sl.doFindNodeOuter key sl.level .head with
  | .inl p => return some p
  | .inr prev => if eq then return none else sl.nextAt prev 0

/-- `skipListOrdered.findNode`, `/repo/skiplist.go:284-286`. -/
def SL.findNodeO [GoOrd K] (sl : SL K V) (key : K) : Outcome (Option Nat) := sl.doFindNode key true

/-- `skipListOrdered.lowerBound`, `/repo/skiplist.go:312-314`. -/
def SL.lowerBoundO [GoOrd K] (sl : SL K V) (key : K) : Outcome (Option Nat) := sl.doFindNode key false

/-- `skipListOrdered.upperBound`, `/repo/skiplist.go:316-322`. -/
def SL.upperBoundO [GoOrd K] (sl : SL K V) (key : K) : Outcome (Option Nat) := do
  match ← sl.lowerBoundO key with
  | none => return none
  | some p =>
    let n ← sl.deref p
    if GoEq.eq n.key key then idx n.next 0 else return some p

/-- Inner loop of `skipListOrdered.findInsertPoint`, `/repo/skiplist.go:330-342`. -/
def SL.findInsertInnerO [GoOrd K] (sl : SL K V) (key : K) (i : Nat) :
    (fuel : Nat) → (prev : Ref) → (next : Option Nat) → Outcome (Nat ⊕ Ref)
  | 0, _, _ => .diverge
  | _ + 1, prev, none => .ret (.inr prev)
  | fuel + 1, prev, some next => do
    let n ← sl.deref next
    if GoEq.eq n.key key then return .inl next
    else if GoOrd.lt key n.key then return .inr prev
    else
      let nx ← idx n.next i
      SL.findInsertInnerO sl key i fuel (.node next) nx

/-- Outer loop of `skipListOrdered.findInsertPoint`, `/repo/skiplist.go:329-344`. `prevs` is the slice of the cache. -/
def SL.findInsertOuterO [GoOrd K] (sl : SL K V) (key : K) :
    Nat → Ref → (prevs : List (Option Ref)) → Outcome (Option Nat × List (Option Ref))
  | 0, _, prevs => .ret (none, prevs)
  | i + 1, prev, prevs => do
    let cur ← sl.nextAt prev i
    match ← sl.findInsertInnerO key i (sl.nodes.length + 1) prev cur with
    | .inl p => return (some p, prevs)
    | .inr prev =>
      let prevs ← setIdx prevs i (some prev)
      SL.findInsertOuterO sl key i prev prevs

/-- Inner loop of `skipListOrdered.findPrevNodes`, `/repo/skiplist.go:362-367`. -/
def SL.findPrevInnerO [GoOrd K] (sl : SL K V) (key : K) (i : Nat) :
    (fuel : Nat) → (prev : Ref) → (next : Option Nat) → Outcome Ref
  | 0, _, _ => .diverge
  | _ + 1, prev, none => .ret prev
  | fuel + 1, prev, some next => do
    let n ← sl.deref next
    if GoOrd.ge n.key key then return prev
    else
      let nx ← idx n.next i
      SL.findPrevInnerO sl key i fuel (.node next) nx

/-- Outer loop of `skipListOrdered.findPrevNodes`, `/repo/skiplist.go:361-369`. -/
def SL.findPrevOuterO [GoOrd K] (sl : SL K V) (key : K) :
    Nat → Ref → (prevs : List (Option Ref)) → Outcome (List (Option Ref))
  | 0, _, prevs => .ret prevs
  | i + 1, prev, prevs => do
    let cur ← sl.nextAt prev i
    let prev ← sl.findPrevInnerO key i (sl.nodes.length + 1) prev cur
    let prevs ← setIdx prevs i (some prev)
    SL.findPrevOuterO sl key i prev prevs

/-! ## Searching with a compare function -/

/-- Inner loop of `skipListFunc.lowerBound`, `/repo/skiplist.go:393-402`. -/
def SL.lowerBoundInnerF (keyCmp : K → K → Int) (sl : SL K V) (key : K) (i : Nat) :
    (fuel : Nat) → (prev : Ref) → (cur : Option Nat) → Outcome (Nat ⊕ Ref)
  | 0, _, _ => .diverge
  | _ + 1, prev, none => .ret (.inr prev)
  | fuel + 1, prev, some cur => do
    let n ← sl.deref cur
    let cmpRet := keyCmp n.key key
    if cmpRet = 0 then return .inl cur
    else if cmpRet > 0 then return .inr prev
    else
      let nx ← idx n.next i
      SL.lowerBoundInnerF keyCmp sl key i fuel (.node cur) nx

/-- Outer loop of `skipListFunc.lowerBound`, `/repo/skiplist.go:391-403`. -/
def SL.lowerBoundOuterF (keyCmp : K → K → Int) (sl : SL K V) (key : K) : Nat → Ref → Outcome (Nat ⊕ Ref)
  | 0, prev => .ret (.inr prev)
  | i + 1, prev => do
    let cur ← sl.nextAt prev i
    match ← SL.lowerBoundInnerF keyCmp sl key i (sl.nodes.length + 1) prev cur with
    | .inl p => return .inl p
    | .inr prev => SL.lowerBoundOuterF keyCmp sl key i prev

/-- `skipListFunc.lowerBound`, `/repo/skiplist.go:389-405`. -/
def SL.lowerBoundF (keyCmp : K → K → Int) (sl : SL K V) (key : K) : Outcome (Option Nat) := do
  match ← SL.lowerBoundOuterF keyCmp sl key sl.level .head with
  | .inl p => return some p
  | .inr prev => sl.nextAt prev 0

/-- `skipListFunc.findNode`, `/repo/skiplist.go:381-387`. -/
def SL.findNodeF (keyCmp : K → K → Int) (sl : SL K V) (key : K) : Outcome (Option Nat) := do
  match ← SL.lowerBoundF keyCmp sl key with
  | none => return none
  | some p =>
    let n ← sl.deref p
    if keyCmp n.key key = 0 then return some p else return none

/-- `skipListFunc.upperBound`, `/repo/skiplist.go:407-413`. -/
def SL.upperBoundF (keyCmp : K → K → Int) (sl : SL K V) (key : K) : Outcome (Option Nat) := do
  match ← SL.lowerBoundF keyCmp sl key with
  | none => return none
  | some p =>
    let n ← sl.deref p
    if keyCmp n.key key = 0 then idx n.next 0 else return some p

/-- Inner loop of `skipListFunc.findInsertPoint`, `/repo/skiplist.go:421-434`. -/
def SL.findInsertInnerF (keyCmp : K → K → Int) (sl : SL K V) (key : K) (i : Nat) :
    (fuel : Nat) → (prev : Ref) → (cur : Option Nat) → Outcome (Nat ⊕ Ref)
  | 0, _, _ => .diverge
  | _ + 1, prev, none => .ret (.inr prev)
  | fuel + 1, prev, some cur => do
    let n ← sl.deref cur
    let r := keyCmp n.key key
    if r = 0 then return .inl cur
    else if r > 0 then return .inr prev
    else
      let nx ← idx n.next i
      SL.findInsertInnerF keyCmp sl key i fuel (.node cur) nx

/-- Outer loop of `skipListFunc.findInsertPoint`, `/repo/skiplist.go:420-436`. -/
def SL.findInsertOuterF (keyCmp : K → K → Int) (sl : SL K V) (key : K) :
    Nat → Ref → (prevs : List (Option Ref)) → Outcome (Option Nat × List (Option Ref))
  | 0, _, prevs => .ret (none, prevs)
  | i + 1, prev, prevs => do
    let cur ← sl.nextAt prev i
    match ← SL.findInsertInnerF keyCmp sl key i (sl.nodes.length + 1) prev cur with
    | .inl p => return (some p, prevs)
    | .inr prev =>
      let prevs ← setIdx prevs i (some prev)
      SL.findInsertOuterF keyCmp sl key i prev prevs

/-- Inner loop of `skipListFunc.findPrevNodes`, `/repo/skiplist.go:454-459`. -/
def SL.findPrevInnerF (keyCmp : K → K → Int) (sl : SL K V) (key : K) (i : Nat) :
    (fuel : Nat) → (prev : Ref) → (next : Option Nat) → Outcome Ref
  | 0, _, _ => .diverge
  | _ + 1, prev, none => .ret prev
  | fuel + 1, prev, some next => do
    let n ← sl.deref next
    if keyCmp n.key key ≥ 0 then return prev
    else
      let nx ← idx n.next i
      SL.findPrevInnerF keyCmp sl key i fuel (.node next) nx

/-- Outer loop of `skipListFunc.findPrevNodes`, `/repo/skiplist.go:453-461`. -/
def SL.findPrevOuterF (keyCmp : K → K → Int) (sl : SL K V) (key : K) :
    Nat → Ref → (prevs : List (Option Ref)) → Outcome (List (Option Ref))
  | 0, _, prevs => .ret prevs
  | i + 1, prev, prevs => do
    let cur ← sl.nextAt prev i
    let prev ← SL.findPrevInnerF keyCmp sl key i (sl.nodes.length + 1) prev cur
    let prevs ← setIdx prevs i (some prev)
    SL.findPrevOuterF keyCmp sl key i prev prevs

/-! ## The interface `skipListImpl`, `/repo/skiplist.go:245-251` -/

/-- Dispatch of `impl.findNode`, `/repo/skiplist.go:246`. -/
def SL.findNode (impl : SLImpl K) (sl : SL K V) (key : K) : Outcome (Option Nat) :=
  match impl with
  | .ordered _ => sl.findNodeO key
  | .func keyCmp => SL.findNodeF keyCmp sl key

/-- Dispatch of `impl.lowerBound`, `/repo/skiplist.go:247`. -/
def SL.lowerBound (impl : SLImpl K) (sl : SL K V) (key : K) : Outcome (Option Nat) :=
  match impl with
  | .ordered _ => sl.lowerBoundO key
  | .func keyCmp => SL.lowerBoundF keyCmp sl key

/-- Dispatch of `impl.upperBound`, `/repo/skiplist.go:248`. -/
def SL.upperBound (impl : SLImpl K) (sl : SL K V) (key : K) : Outcome (Option Nat) :=
  match impl with
  | .ordered _ => sl.upperBoundO key
  | .func keyCmp => SL.upperBoundF keyCmp sl key

/-- The slice expression `sl.prevsCache[0:sl.level]`, `/repo/skiplist.go:327,359,418,451`, which panics when `level` exceeds the capacity. -/
def SL.prevsSlice (sl : SL K V) : Outcome (List (Option Ref)) :=
  if sl.level ≤ sl.prevsCache.length then .ret (sl.prevsCache.take sl.level) else .panic

/-- `prevs` (`/repo/skiplist.go:327,359,418,451`) shares its array with the cache: what was written to `prevs` is in the cache afterwards. -/
def SL.storePrevs (sl : SL K V) (prevs : List (Option Ref)) : SL K V :=
  { sl with prevsCache := prevs ++ sl.prevsCache.drop prevs.length }

/-- `findInsertPoint`, `/repo/skiplist.go:326-346` and `417-438`: the list (its cache is overwritten), the node if the key
exists (with nil `prevs`), and otherwise the previous nodes. -/
def SL.findInsertPoint (impl : SLImpl K) (sl : SL K V) (key : K) :
    Outcome (SL K V × Option Nat × List (Option Ref)) := do
  let prevs ← sl.prevsSlice
  let (node, prevs) ← match impl with
    | .ordered _ => sl.findInsertOuterO key sl.level .head prevs
    | .func keyCmp => SL.findInsertOuterF keyCmp sl key sl.level .head prevs
  return (sl.storePrevs prevs, node, if node.isSome then [] else prevs)

/-- `findPrevNodes`, `/repo/skiplist.go:358-371` and `450-463`. -/
def SL.findPrevNodes (impl : SLImpl K) (sl : SL K V) (key : K) : Outcome (SL K V × List (Option Ref)) := do
  let prevs ← sl.prevsSlice
  let prevs ← match impl with
    | .ordered _ => sl.findPrevOuterO key sl.level .head prevs
    | .func keyCmp => SL.findPrevOuterF keyCmp sl key sl.level .head prevs
  return (sl.storePrevs prevs, prevs)

/-- `prevs[i]` used as a node, `/repo/skiplist.go:105,162,351,443`: out of range or nil panics. -/
def prevAt (prevs : List (Option Ref)) (i : Nat) : Outcome Ref := do
  match ← idx prevs i with
  | some r => return r
  | none => .panic

/-- The key test of `findRemovePoint`: `node.key != key` (`/repo/skiplist.go:352`) or `keyCmp(node.key, key) != 0` (`444`). -/
def SLImpl.keyNe (impl : SLImpl K) (a b : K) : Bool :=
  match impl with
  | .ordered _ => !(GoEq.eq a b)
  | .func keyCmp => keyCmp a b != 0

/-- `findRemovePoint`, `/repo/skiplist.go:349-356` and `441-448`. -/
def SL.findRemovePoint (impl : SLImpl K) (sl : SL K V) (key : K) :
    Outcome (SL K V × Option (Nat × List (Option Ref))) := do
  let (sl, prevs) ← sl.findPrevNodes impl key
  let r ← prevAt prevs 0
  match ← sl.nextAt r 0 with
  | none => return (sl, none)
  | some p =>
    let n ← sl.deref p
    if impl.keyNe n.key key then return (sl, none) else return (sl, some (p, prevs))

/-! ## Methods -/

/-- `IsEmpty`, `/repo/skiplist.go:66-68`. -/
def SL.isEmpty (sl : SL K V) : Bool := sl.len == 0
/-- `Len`, `/repo/skiplist.go:71-73`. -/
def SL.length (sl : SL K V) : Int := sl.len

/-- `Clear`, `/repo/skiplist.go:76-82`. -/
def SL.clear (sl : SL K V) : SL K V :=
  { sl with headNext := sl.headNext.map (fun _ => none), level := 1, len := 0 }

/-- First loop of `Insert`, `/repo/skiplist.go:104-107`; `rem` iterations left. -/
def SL.insertLinks (node : Nat) (prevs : List (Option Ref)) : (rem i : Nat) → SL K V → Outcome (SL K V)
  | 0, _, sl => .ret sl
  | rem + 1, i, sl => do
    let r ← prevAt prevs i
    let nx ← sl.nextAt r i
    let sl ← sl.setNextAt (.node node) i nx
    let sl ← sl.setNextAt r i (some node)
    SL.insertLinks node prevs rem (i + 1) sl

/-- Second loop of `Insert`, `/repo/skiplist.go:111-113`. -/
def SL.raiseHead (node : Nat) : (rem i : Nat) → SL K V → Outcome (SL K V)
  | 0, _, sl => .ret sl
  | rem + 1, i, sl => do
    let sl ← sl.setNextAt .head i (some node)
    SL.raiseHead node rem (i + 1) sl

/-- `Insert`, `/repo/skiplist.go:91-118`; `rnd` is the 64-bit number that `randomLevel` would draw. -/
def SL.insert (impl : SLImpl K) (rnd : Nat) (sl : SL K V) (key : K) (value : V) : Outcome (SL K V) := do
  let (sl, node, prevs) ← sl.findInsertPoint impl key
  match node with
  | some p => sl.setValue p value
  | none =>
    let level ← sl.randomLevel rnd
    let (sl, node) ← sl.newNode level key value
    let sl ← SL.insertLinks node prevs (min2 level sl.level) 0 sl
    let sl ← if level > sl.level then do
                let s ← SL.raiseHead node (level - sl.level) sl.level sl
                pure { s with level := level }
              else pure sl
    return { sl with len := sl.len + 1 }

/-- `Find`, `/repo/skiplist.go:122-128`: the address of the node whose `value` field is pointed to. -/
def SL.find (impl : SLImpl K) (sl : SL K V) (key : K) : Outcome (Option Nat) := sl.findNode impl key

/-- A client dereferencing the pointer returned by `Find`, `/repo/skiplist.go:125` (not in the repository). -/
def SL.readPtr (sl : SL K V) (p : Nat) : Outcome V := do
  let n ← sl.deref p
  return n.value

/-- `Has`, `/repo/skiplist.go:131-133`. -/
def SL.has (impl : SLImpl K) (sl : SL K V) (key : K) : Outcome Bool := do
  let node ← sl.findNode impl key
  return node.isSome

/-- First loop of `Remove`, `/repo/skiplist.go:161-163`: `node.next` is ranged over by index. -/
def SL.unlink (node : Nat) (prevs : List (Option Ref)) : (rem i : Nat) → SL K V → Outcome (SL K V)
  | 0, _, sl => .ret sl
  | rem + 1, i, sl => do
    let v ← sl.nextAt (.node node) i
    let r ← prevAt prevs i
    let sl ← sl.setNextAt r i v
    SL.unlink node prevs rem (i + 1) sl

/-- Second loop of `Remove`, `/repo/skiplist.go:165-167`. -/
def SL.lowerLevel : (fuel : Nat) → SL K V → Outcome (SL K V)
  | 0, _ => .diverge
  | fuel + 1, sl =>
    if sl.level > 1 then do
      match ← idx sl.headNext (sl.level - 1) with
      | none => SL.lowerLevel fuel { sl with level := sl.level - 1 }
      | some _ => return sl
    else .ret sl

/-- `Remove`, `/repo/skiplist.go:156-170`. -/
def SL.remove (impl : SLImpl K) (sl : SL K V) (key : K) : Outcome (SL K V × Bool) := do
  let (sl, found) ← sl.findRemovePoint impl key
  match found with
  | none => return (sl, false)
  | some (p, prevs) =>
    let n ← sl.deref p
    let sl ← SL.unlink p prevs n.next.length 0 sl
    let sl ← SL.lowerLevel (sl.level + 1) sl
    return ({ sl with len := sl.len - 1 }, true)

/-! ## Iteration -/

/-- `skipListIterator`, `/repo/skiplist.go:215-217`. -/
structure SLIter where
  node : Option Nat
  stop : Option Nat
deriving DecidableEq, Repr

/-- `Iterate`, `/repo/skiplist.go:85-87`. -/
def SL.iterate (sl : SL K V) : Outcome SLIter := do
  let p ← idx sl.headNext 0
  return { node := p, stop := none }

/-- `LowerBound`, `/repo/skiplist.go:138-140`. -/
def SL.lowerBoundIter (impl : SLImpl K) (sl : SL K V) (key : K) : Outcome SLIter := do
  let p ← sl.lowerBound impl key
  return { node := p, stop := none }

/-- `UpperBound`, `/repo/skiplist.go:145-147`. -/
def SL.upperBoundIter (impl : SLImpl K) (sl : SL K V) (key : K) : Outcome SLIter := do
  let p ← sl.upperBound impl key
  return { node := p, stop := none }

/-- `FindRange`, `/repo/skiplist.go:150-152`. -/
def SL.findRange (impl : SLImpl K) (sl : SL K V) (first last : K) : Outcome SLIter := do
  let a ← sl.lowerBound impl first
  let b ← sl.upperBound impl last
  return { node := a, stop := b }

/-- `IsNotEnd`, `/repo/skiplist.go:219-221`. -/
def SLIter.isNotEnd (it : SLIter) : Bool := decide (it.node ≠ it.stop)

/-- Dereference of `it.node`, as in `/repo/skiplist.go:224,228,232`; nil panics. -/
def SLIter.deref (it : SLIter) (sl : SL K V) : Outcome (SLNode K V) :=
  match it.node with
  | some p => sl.deref p
  | none => .panic

/-- `MoveToNext`, `/repo/skiplist.go:223-225`. -/
def SLIter.moveToNext (it : SLIter) (sl : SL K V) : Outcome SLIter := do
  let n ← it.deref sl
  let p ← idx n.next 0
  return { it with node := p }

/-- `Key`, `/repo/skiplist.go:227-229`. -/
def SLIter.key (it : SLIter) (sl : SL K V) : Outcome K := do
  let n ← it.deref sl
  return n.key

/-- `Value`, `/repo/skiplist.go:231-233` (and the target of `Pointer`, `235-237`). -/
def SLIter.value (it : SLIter) (sl : SL K V) : Outcome V := do
  let n ← it.deref sl
  return n.value

/-- The client loop `for it.IsNotEnd() { use it.Key(), it.Value(); it.MoveToNext() }` (`/repo/README.md:104`). -/
def SLIter.collect (sl : SL K V) : (fuel : Nat) → SLIter → Outcome (List (K × V))
  | 0, _ => .diverge
  | fuel + 1, it =>
    if it.isNotEnd then do
      let k ← it.key sl
      let v ← it.value sl
      let it ← it.moveToNext sl
      let rest ← SLIter.collect sl fuel it
      return (k, v) :: rest
    else .ret []

/-- Loop of `ForEach`, `/repo/skiplist.go:174-176`. The callback has a state `σ` and may itself change the list. -/
def SL.forEachLoop {σ : Type} (op : SL K V × σ → K → V → Outcome (SL K V × σ)) :
    (fuel : Nat) → Option Nat → SL K V × σ → Outcome (SL K V × σ)
  | 0, _, _ => .diverge
  | _ + 1, none, s => .ret s
  | fuel + 1, some e, s => do
    let n ← s.1.deref e
    let s ← op s n.key n.value
    let n ← s.1.deref e
    let e ← idx n.next 0
    SL.forEachLoop op fuel e s

/-- `ForEach`, `/repo/skiplist.go:173-177`. -/
def SL.forEach {σ : Type} (op : SL K V × σ → K → V → Outcome (SL K V × σ)) (s : SL K V × σ) : Outcome (SL K V × σ) := do
  let e ← idx s.1.headNext 0
  SL.forEachLoop op (s.1.nodes.length + 1) e s

/-- Loop of `ForEachIf`, `/repo/skiplist.go:188-192`. -/
def SL.forEachIfLoop {σ : Type} (op : SL K V × σ → K → V → Outcome ((SL K V × σ) × Bool)) :
    (fuel : Nat) → Option Nat → SL K V × σ → Outcome (SL K V × σ)
  | 0, _, _ => .diverge
  | _ + 1, none, s => .ret s
  | fuel + 1, some e, s => do
    let n ← s.1.deref e
    let (s, b) ← op s n.key n.value
    if !b then return s
    else
      let n ← s.1.deref e
      let e ← idx n.next 0
      SL.forEachIfLoop op fuel e s

/-- `ForEachIf`, `/repo/skiplist.go:187-193`. -/
def SL.forEachIf {σ : Type} (op : SL K V × σ → K → V → Outcome ((SL K V × σ) × Bool)) (s : SL K V × σ) :
    Outcome (SL K V × σ) := do
  let e ← idx s.1.headNext 0
  SL.forEachIfLoop op (s.1.nodes.length + 1) e s

/-- Loop of `ForEachMutable`, `/repo/skiplist.go:181-183`: the callback gets the address of the value. -/
def SL.forEachMutableLoop {σ : Type} (op : SL K V × σ → K → Nat → Outcome (SL K V × σ)) :
    (fuel : Nat) → Option Nat → SL K V × σ → Outcome (SL K V × σ)
  | 0, _, _ => .diverge
  | _ + 1, none, s => .ret s
  | fuel + 1, some e, s => do
    let n ← s.1.deref e
    let s ← op s n.key e
    let n ← s.1.deref e
    let e ← idx n.next 0
    SL.forEachMutableLoop op fuel e s

/-- `ForEachMutable`, `/repo/skiplist.go:180-184`. -/
def SL.forEachMutable {σ : Type} (op : SL K V × σ → K → Nat → Outcome (SL K V × σ)) (s : SL K V × σ) :
    Outcome (SL K V × σ) := do
  let e ← idx s.1.headNext 0
  SL.forEachMutableLoop op (s.1.nodes.length + 1) e s

/-- Loop of `ForEachMutableIf`, `/repo/skiplist.go:197-201`. -/
def SL.forEachMutableIfLoop {σ : Type} (op : SL K V × σ → K → Nat → Outcome ((SL K V × σ) × Bool)) :
    (fuel : Nat) → Option Nat → SL K V × σ → Outcome (SL K V × σ)
  | 0, _, _ => .diverge
  | _ + 1, none, s => .ret s
  | fuel + 1, some e, s => do
    let n ← s.1.deref e
    let (s, b) ← op s n.key e
    if !b then return s
    else
      let n ← s.1.deref e
      let e ← idx n.next 0
      SL.forEachMutableIfLoop op fuel e s

/-- `ForEachMutableIf`, `/repo/skiplist.go:196-202`. -/
def SL.forEachMutableIf {σ : Type} (op : SL K V × σ → K → Nat → Outcome ((SL K V × σ) × Bool)) (s : SL K V × σ) :
    Outcome (SL K V × σ) := do
  let e ← idx s.1.headNext 0
  SL.forEachMutableIfLoop op (s.1.nodes.length + 1) e s

/-- Loop of `NewSkipListFromMap`, `/repo/skiplist.go:50-52`: the entries in the order of the map iteration, each with the
random number drawn for it. -/
def SL.insertAll (impl : SLImpl K) : List (Nat × K × V) → SL K V → Outcome (SL K V)
  | [], sl => .ret sl
  | (rnd, k, v) :: es, sl => do
    let sl ← sl.insert impl rnd k v
    SL.insertAll impl es sl

/-- `NewSkipListFromMap`, `/repo/skiplist.go:48-54`. -/
def newSkipListFromMap [ord : GoOrd K] (entries : List (Nat × K × V)) : Outcome (SL K V) :=
  SL.insertAll (.ordered ord) entries newSkipList

end Stl4go
