import Verif.Model.Locked
import Verif.Model.SkipListM
import Verif.Model.SkipListThreads
/-!
# `Insert`, `Remove` and `Clear` access by access

`Model/SkipListThreads.lean` splits the methods of a skip list that do not relink nodes into accesses. Here are those that do. The accesses are reads and writes of `sl.level`, `sl.len`, `r.next[i]`, `p.key`, `p.value` and
of an element of `prevsCache`, and making a node. `prevs` is `prevsCache[0:level]`, so two calls that run at the same time write to the same `prevs`. The random number of an `Insert` is part of the call.
At its beginning a call looks at the number of nodes ever made, which bounds the rounds of the search loops; this is no access of the code. While other calls make nodes the bound may be too small, and the
model then calls `diverge` what may go on; no theorem uses that.
-/
namespace Stl4go
variable {K V α : Type}

/-! ## Accesses -/

/-- `p.key` (`/repo/skiplist.go:331`). -/
def lkKey (p : Nat) : Steps (SL K V) K := .look (fun sl => do let n ← sl.deref p; return n.key)
/-- `r.next[i]` (`/repo/skiplist.go:330`). -/
def lkNext (r : Ref) (i : Nat) : Steps (SL K V) (Option Nat) := .look (fun sl => sl.nextAt r i)
/-- `sl.level` (`/repo/skiplist.go:329`). -/
def lkLevel : Steps (SL K V) Nat := .look (fun sl => .ret sl.level)
/-- `sl.len` (`/repo/skiplist.go:267`). -/
def lkLen : Steps (SL K V) Int := .look (fun sl => .ret sl.len)
/-- The number of nodes ever made; no access of the code (`/repo/skiplist.go:330` would use it if it counted rounds). -/
def lkNodes : Steps (SL K V) Nat := .look (fun sl => .ret sl.nodes.length)
/-- `prevs[i]` used as a node, where `prevs` has length `level` (`/repo/skiplist.go:105`). -/
def lkPrev (level i : Nat) : Steps (SL K V) Ref := .look (fun sl => prevAt (sl.prevsCache.take level) i)
/-- `r.next[i] = v` (`/repo/skiplist.go:106`). -/
def lkSetNext (r : Ref) (i : Nat) (v : Option Nat) : Steps (SL K V) Unit := .change (fun sl => do let sl ← sl.setNextAt r i v; return (sl, ()))
/-- `p.value = v` (`/repo/skiplist.go:96`). -/
def lkSetValue (p : Nat) (v : V) : Steps (SL K V) Unit := .change (fun sl => do let sl ← sl.setValue p v; return (sl, ()))
/-- `prevs[i] = prev`, where `prevs` has length `level` (`/repo/skiplist.go:343`). -/
def lkSetPrev (level i : Nat) (prev : Ref) : Steps (SL K V) Unit := .change (SL.setPrev level i prev)
/-- `sl.level = l` (`/repo/skiplist.go:114`). -/
def lkSetLevel (l : Nat) : Steps (SL K V) Unit := .change (fun sl => .ret ({ sl with level := l }, ()))
/-- `sl.len = n` (`/repo/skiplist.go:81`). -/
def lkSetLen (n : Int) : Steps (SL K V) Unit := .change (fun sl => .ret ({ sl with len := n }, ()))
/-- `newSkipListNode(level, key, value)` (`/repo/skiplist.go:101`). -/
def lkNewNode (level : Nat) (key : K) (value : V) : Steps (SL K V) Nat := .change (fun sl => sl.newNode level key value)
/-- `sl.prevsCache[0:l]`, which panics if `l` exceeds the capacity (`/repo/skiplist.go:327`). -/
def lkSlice (l : Nat) : Steps (SL K V) Unit := .look (fun sl => if l ≤ sl.prevsCache.length then .ret () else .panic)

/-! ## Insert -/

/-- Inner loop of `skipListOrdered.findInsertPoint`, `/repo/skiplist.go:330-342`. -/
def lkInsertInnerO [GoOrd K] (key : K) (i : Nat) : (fuel : Nat) → (prev : Ref) → (next : Option Nat) → Steps (SL K V) (Nat ⊕ Ref)
  | 0, _, _ => .diverge
  | _ + 1, prev, none => .ret (.inr prev)
  | fuel + 1, prev, some next => do
    let a ← lkKey next
    if GoEq.eq a key then .ret (.inl next)
    else do
      let b ← lkKey next
      if GoOrd.lt key b then .ret (.inr prev)
      else do
        let nx ← lkNext (.node next) i
        lkInsertInnerO key i fuel (.node next) nx

/-- Inner loop of `skipListFunc.findInsertPoint`, `/repo/skiplist.go:421-434`. -/
def lkInsertInnerF (keyCmp : K → K → Int) (key : K) (i : Nat) : (fuel : Nat) → (prev : Ref) → (next : Option Nat) → Steps (SL K V) (Nat ⊕ Ref)
  | 0, _, _ => .diverge
  | _ + 1, prev, none => .ret (.inr prev)
  | fuel + 1, prev, some next => do
    let a ← lkKey next
    if keyCmp a key = 0 then .ret (.inl next)
    else if keyCmp a key > 0 then .ret (.inr prev)
    else do
      let nx ← lkNext (.node next) i
      lkInsertInnerF keyCmp key i fuel (.node next) nx

/-- The inner loop of `findInsertPoint` of either implementation, `/repo/skiplist.go:330-342,421-434`. -/
def lkInsertInner (impl : SLImpl K) (key : K) (i fuel : Nat) (prev : Ref) (next : Option Nat) : Steps (SL K V) (Nat ⊕ Ref) :=
  match impl with
  | .ordered _ => lkInsertInnerO key i fuel prev next
  | .func keyCmp => lkInsertInnerF keyCmp key i fuel prev next

/-- Outer loop of `findInsertPoint`, `/repo/skiplist.go:329-344` and `420-436`; `level` is the length of `prevs`, `n` bounds the inner loop. -/
def lkInsertOuter (impl : SLImpl K) (n : Nat) (key : K) (level : Nat) : Nat → Ref → Steps (SL K V) (Option Nat)
  | 0, _ => .ret none
  | i + 1, prev => do
    let cur ← lkNext prev i
    match ← lkInsertInner impl key i (n + 1) prev cur with
    | .inl p => .ret (some p)
    | .inr prev => do
      lkSetPrev level i prev
      lkInsertOuter impl n key level i prev

/-- `findInsertPoint`, `/repo/skiplist.go:326-346` and `417-438`: the node if the key exists, and the length of `prevs`. The level is read twice. -/
def lkFindInsertPoint (impl : SLImpl K) (key : K) : Steps (SL K V) (Option Nat × Nat) := do
  let n ← lkNodes
  let level ← lkLevel
  lkSlice level
  let l ← lkLevel
  let node ← lkInsertOuter impl n key level l .head
  return (node, level)

/-- Loop of `randomLevel`, `/repo/skiplist.go:267-269`. -/
def lkRandomLevelLoop : (fuel level : Nat) → Steps (SL K V) Nat
  | 0, _ => .diverge
  | fuel + 1, level =>
    if level > 3 then do
      let len ← lkLen
      if (2 ^ (level - 3) : Int) > len then lkRandomLevelLoop fuel (level - 1) else .ret level
    else .ret level

/-- `randomLevel`, `/repo/skiplist.go:261-275`; `rnd` is the value returned by `sl.rander.Uint64()`. -/
def lkRandomLevel (rnd : Nat) : Steps (SL K V) Nat := do
  let level := skipListMaxLevel - bitsLen64 (rnd &&& (2 ^ skipListMaxLevel - 1)) + 1
  let level ← lkRandomLevelLoop (level + 1) level
  return if level > skipListMaxLevel then skipListMaxLevel else level

/-- First loop of `Insert`, `/repo/skiplist.go:104-107`. The bound and `prevs[i]` are read anew each time. -/
def lkInsertLinks (node plen level : Nat) : (fuel i : Nat) → Steps (SL K V) Unit
  | 0, _ => .diverge
  | fuel + 1, i => do
    let l ← lkLevel
    if i < min2 level l then do
      let r ← lkPrev plen i
      let nx ← lkNext r i
      lkSetNext (.node node) i nx
      let r ← lkPrev plen i
      lkSetNext r i (some node)
      lkInsertLinks node plen level fuel (i + 1)
    else .ret ()

/-- Second loop of `Insert`, `/repo/skiplist.go:111-113`. -/
def lkRaiseHead (node : Nat) : (rem i : Nat) → Steps (SL K V) Unit
  | 0, _ => .ret ()
  | rem + 1, i => do
    lkSetNext .head i (some node)
    lkRaiseHead node rem (i + 1)

/-- `Insert`, `/repo/skiplist.go:91-118`. -/
def lkInsert (impl : SLImpl K) (rnd : Nat) (key : K) (value : V) : Steps (SL K V) Unit := do
  let (node, plen) ← lkFindInsertPoint impl key
  match node with
  | some p => lkSetValue p value
  | none => do
    let level ← lkRandomLevel rnd
    let node ← lkNewNode level key value
    lkInsertLinks node plen level (level + 1) 0
    let l ← lkLevel
    if level > l then do
      let l ← lkLevel
      lkRaiseHead node (level - l) l
      lkSetLevel level
    else .ret ()
    let n ← lkLen
    lkSetLen (n + 1)

/-! ## Remove -/

/-- Inner loop of `skipListOrdered.findPrevNodes`, `/repo/skiplist.go:362-367`. -/
def lkPrevInnerO [GoOrd K] (key : K) (i : Nat) : (fuel : Nat) → (prev : Ref) → (next : Option Nat) → Steps (SL K V) Ref
  | 0, _, _ => .diverge
  | _ + 1, prev, none => .ret prev
  | fuel + 1, prev, some next => do
    let a ← lkKey next
    if GoOrd.ge a key then .ret prev
    else do
      let nx ← lkNext (.node next) i
      lkPrevInnerO key i fuel (.node next) nx

/-- Inner loop of `skipListFunc.findPrevNodes`, `/repo/skiplist.go:454-459`. -/
def lkPrevInnerF (keyCmp : K → K → Int) (key : K) (i : Nat) : (fuel : Nat) → (prev : Ref) → (next : Option Nat) → Steps (SL K V) Ref
  | 0, _, _ => .diverge
  | _ + 1, prev, none => .ret prev
  | fuel + 1, prev, some next => do
    let a ← lkKey next
    if keyCmp a key ≥ 0 then .ret prev
    else do
      let nx ← lkNext (.node next) i
      lkPrevInnerF keyCmp key i fuel (.node next) nx

/-- The inner loop of `findPrevNodes` of either implementation, `/repo/skiplist.go:362-367,454-459`. -/
def lkPrevInner (impl : SLImpl K) (key : K) (i fuel : Nat) (prev : Ref) (next : Option Nat) : Steps (SL K V) Ref :=
  match impl with
  | .ordered _ => lkPrevInnerO key i fuel prev next
  | .func keyCmp => lkPrevInnerF keyCmp key i fuel prev next

/-- Outer loop of `findPrevNodes`, `/repo/skiplist.go:361-369` and `453-461`. -/
def lkPrevOuter (impl : SLImpl K) (n : Nat) (key : K) (level : Nat) : Nat → Ref → Steps (SL K V) Unit
  | 0, _ => .ret ()
  | i + 1, prev => do
    let cur ← lkNext prev i
    let prev ← lkPrevInner impl key i (n + 1) prev cur
    lkSetPrev level i prev
    lkPrevOuter impl n key level i prev

/-- `findPrevNodes`, `/repo/skiplist.go:358-371` and `450-463`: the length of `prevs`. -/
def lkFindPrevNodes (impl : SLImpl K) (key : K) : Steps (SL K V) Nat := do
  let n ← lkNodes
  let level ← lkLevel
  lkSlice level
  let l ← lkLevel
  lkPrevOuter impl n key level l .head
  return level

/-- `findRemovePoint`, `/repo/skiplist.go:349-356` and `441-448`. -/
def lkFindRemovePoint (impl : SLImpl K) (key : K) : Steps (SL K V) (Option (Nat × Nat)) := do
  let plen ← lkFindPrevNodes impl key
  let r ← lkPrev plen 0
  match ← lkNext r 0 with
  | none => return none
  | some p => do
    let a ← lkKey p
    if impl.keyNe a key then return none else return some (p, plen)

/-- First loop of `Remove`, `/repo/skiplist.go:161-163`. -/
def lkUnlink (node plen : Nat) : (rem i : Nat) → Steps (SL K V) Unit
  | 0, _ => .ret ()
  | rem + 1, i => do
    let v ← lkNext (.node node) i
    let r ← lkPrev plen i
    lkSetNext r i v
    lkUnlink node plen rem (i + 1)

/-- Second loop of `Remove`, `/repo/skiplist.go:165-167`. The level is read up to three times in a round. -/
def lkLowerLevel : (fuel : Nat) → Steps (SL K V) Unit
  | 0 => .diverge
  | fuel + 1 => do
    let l ← lkLevel
    if l > 1 then do
      let l ← lkLevel
      match ← lkNext .head (l - 1) with
      | none => do
        let l ← lkLevel
        lkSetLevel (l - 1)
        lkLowerLevel fuel
      | some _ => .ret ()
    else .ret ()

/-- `Remove`, `/repo/skiplist.go:156-170`. The length of `node.next` does not change. -/
def lkRemove (impl : SLImpl K) (key : K) : Steps (SL K V) Bool := do
  match ← lkFindRemovePoint impl key with
  | none => return false
  | some (p, plen) => do
    let h ← Steps.look (fun sl => do let n ← sl.deref p; return n.next.length)
    lkUnlink p plen h 0
    let l ← lkLevel
    lkLowerLevel (l + 1)
    let n ← lkLen
    lkSetLen (n - 1)
    return true

/-! ## Clear -/

/-- Loop of `Clear`, `/repo/skiplist.go:77-79`. -/
def lkClearLoop : (rem i : Nat) → Steps (SL K V) Unit
  | 0, _ => .ret ()
  | rem + 1, i => do
    lkSetNext .head i none
    lkClearLoop rem (i + 1)

/-- `Clear`, `/repo/skiplist.go:76-82`. -/
def lkClear : Steps (SL K V) Unit := do
  let h ← Steps.look (fun sl => .ret sl.headNext.length)
  lkClearLoop h 0
  lkSetLevel 1
  lkSetLen 0

/-! ## Calls -/

/-- The accesses of a method that relinks no nodes, in this form (`/repo/skiplist.go:122-183`). -/
def SGThread.steps' : SGThread K V α → Steps (SL K V) α
  | .ret a => .ret a
  | .panic => .panic
  | .diverge => .diverge
  | .level k => .act (fun sl => (k sl.level).steps') id
  | .len k => .act (fun sl => (k sl.len).steps') id
  | .next r i k => .act (fun sl => match sl.nextAt r i with
    | .ret v => (k v).steps'
    | _ => .panic) id
  | .key p k => .act (fun sl => match sl.deref p with
    | .ret n => (k n.key).steps'
    | _ => .panic) id
  | .value p k => .act (fun sl => match sl.deref p with
    | .ret n => (k n.value).steps'
    | _ => .panic) id
  | .setValue p v k => .act (fun sl => match sl.setValue p v with
    | .ret _ => k.steps'
    | _ => .panic) (fun sl => match sl.setValue p v with
    | .ret sl => sl
    | _ => sl)

/-- A call of a client (`/repo/skiplist.go:71-183`): one that relinks nodes, or one of `SGCall`. -/
inductive LKCall (K V : Type) where
  | insert (rnd : Nat) (k : K) (v : V)
  | remove (k : K)
  | clear
  | other (c : SGCall K V)

/-- Its accesses (`/repo/skiplist.go:71-183`). -/
def LKCall.body (impl : SLImpl K) : LKCall K V → Steps (SL K V) (SGRet K V)
  | .insert rnd k v => do
    lkInsert impl rnd k v
    return .unit
  | .remove k => do
    let b ← lkRemove impl k
    return .flag b
  | .clear => do
    lkClear
    return .unit
  | .other c => do
    let n ← lkNodes
    (c.thread impl n).steps'

/-- The same call as one step, by the functions of `Model/SkipList.lean` (`/repo/skiplist.go:71-183`). -/
def LKCall.call (impl : SLImpl K) (sl : SL K V) : LKCall K V → Outcome (SGRet K V × SL K V)
  | .insert rnd k v => do
    let sl ← sl.insert impl rnd k v
    return (.unit, sl)
  | .remove k => do
    let (sl, b) ← sl.remove impl k
    return (.flag b, sl)
  | .clear => .ret (.unit, sl.clear)
  | .other c => c.call impl sl

/-- Whether the client has to take the lock for writing (client code around `/repo/skiplist.go:71-183`): the searches, `Len` and `ForEach` only look. -/
def LKCall.writes : LKCall K V → Bool
  | .other (.update _ _) | .other (.forEachMutable _) => true
  | .other _ => false
  | _ => true

/-- The call between `Lock` and `Unlock`, or `RLock` and `RUnlock` (client code around `/repo/skiplist.go:71-183`). -/
def LKCall.locked (impl : SLImpl K) (c : LKCall K V) : LockedCall (SL K V) (SGRet K V) := { write := c.writes, body := c.body impl }

end Stl4go
