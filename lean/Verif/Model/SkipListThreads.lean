import Verif.Model.SkipList
/-!
# Goroutines that share a skip list

`Model/SkipList.lean` takes a call as one step. Here a call is an `SGThread`, which gives way to other goroutines before every access to a field of the list or of a node. Modelled are the methods
that do not relink nodes: the searches, `Len`, `ForEach` and `ForEachMutable`, and clients that read and write through the pointer that `Find` returns. A link `next[i]` is one field; the slice
header `next`, `sl.impl` and the compare function are not written after they are made, and reading them is no access here. Compare functions and callbacks are pure. Loops have fuel `fuel + 1`, where
`fuel` is the number of nodes ever made (which these methods do not change).
-/
namespace Stl4go
variable {K V α β : Type}

/-- The rest of a goroutine: its next access, or its end. The accesses are `sl.level` (`/repo/skiplist.go:293`), `sl.len` (`72`), `r.next[i]` (`294`), `p.key` (`295`), and reading and writing `p.value`
(through the pointer of `125`). -/
inductive SGThread (K V α : Type) where
  | ret (a : α)
  | panic
  | diverge
  | level (k : Nat → SGThread K V α)
  | len (k : Int → SGThread K V α)
  | next (r : Ref) (i : Nat) (k : Option Nat → SGThread K V α)
  | key (p : Nat) (k : K → SGThread K V α)
  | value (p : Nat) (k : V → SGThread K V α)
  | setValue (p : Nat) (v : V) (k : SGThread K V α)

/-- Statements one after another (`/repo/skiplist.go:122-128`). -/
def SGThread.bind : SGThread K V α → (α → SGThread K V β) → SGThread K V β
  | .ret a, f => f a
  | .panic, _ => .panic
  | .diverge, _ => .diverge
  | .level k, f => .level (fun x => (k x).bind f)
  | .len k, f => .len (fun x => (k x).bind f)
  | .next r i k, f => .next r i (fun x => (k x).bind f)
  | .key p k, f => .key p (fun x => (k x).bind f)
  | .value p k, f => .value p (fun x => (k x).bind f)
  | .setValue p v k, f => .setValue p v (k.bind f)

instance : Monad (SGThread K V) where
  pure := SGThread.ret
  bind := SGThread.bind

/-- The value of an access, or a panic (`/repo/skiplist.go:294`: index out of range). -/
def SGThread.load {γ : Type} (o : Outcome γ) (k : γ → SGThread K V α) : SGThread K V α :=
  match o with
  | .ret v => k v
  | _ => .panic

/-- One access (`/repo/skiplist.go:293-295`). A goroutine that has ended does nothing. -/
def SGThread.step : SGThread K V α → SL K V → SGThread K V α × SL K V
  | .level k, sl => (k sl.level, sl)
  | .len k, sl => (k sl.len, sl)
  | .next r i k, sl => (load (sl.nextAt r i) k, sl)
  | .key p k, sl => (load (sl.deref p) (fun n => k n.key), sl)
  | .value p k, sl => (load (sl.deref p) (fun n => k n.value), sl)
  | .setValue p v k, sl =>
    match sl.setValue p v with
    | .ret sl => (k, sl)
    | _ => (.panic, sl)
  | x, sl => (x, sl)

/-- All of it, while no other goroutine does anything (`/repo/skiplist.go:122-128`). -/
def SGThread.run : SGThread K V α → GoM (SL K V) α
  | .ret a, sl => .ok a sl
  | .panic, sl => .panic sl
  | .diverge, _ => .diverge
  | .level k, sl => (k sl.level).run sl
  | .len k, sl => (k sl.len).run sl
  | .next r i k, sl =>
    match sl.nextAt r i with
    | .ret v => (k v).run sl
    | _ => .panic sl
  | .key p k, sl =>
    match sl.deref p with
    | .ret n => (k n.key).run sl
    | _ => .panic sl
  | .value p k, sl =>
    match sl.deref p with
    | .ret n => (k n.value).run sl
    | _ => .panic sl
  | .setValue p v k, sl =>
    match sl.setValue p v with
    | .ret sl => k.run sl
    | _ => .panic sl

/-- Goroutines `ts` on one list (`/repo/skiplist.go:122`, called by several): the scheduler lets them do one access each, in the order of the list. -/
def interleaveSG (ts : Nat → SGThread K V α) (sl : SL K V) : (schedule : List Nat) → (Nat → SGThread K V α) × SL K V
  | [] => (ts, sl)
  | i :: rest =>
    let r := (ts i).step sl
    interleaveSG (fun j => if j = i then r.1 else ts j) r.2 rest

/-! ## Searches -/

/-- Inner loop of `skipListOrdered.doFindNode`, `/repo/skiplist.go:294-304`. The key of `cur` is read twice. -/
def sgFindInnerO [GoOrd K] (key : K) (i : Nat) : (fuel : Nat) → (prev : Ref) → (cur : Option Nat) → SGThread K V (Nat ⊕ Ref)
  | 0, _, _ => .diverge
  | _ + 1, prev, none => .ret (.inr prev)
  | fuel + 1, prev, some cur => .key cur fun a =>
    if GoEq.eq a key then .ret (.inl cur)
    else .key cur fun b =>
      if GoOrd.lt key b then .ret (.inr prev)
      else .next (.node cur) i fun nx => sgFindInnerO key i fuel (.node cur) nx

/-- Outer loop of `doFindNode`, `/repo/skiplist.go:293-305`; the first argument is `i+1`. -/
def sgFindOuterO [GoOrd K] (fuel : Nat) (key : K) : Nat → Ref → SGThread K V (Nat ⊕ Ref)
  | 0, prev => .ret (.inr prev)
  | i + 1, prev => .next prev i fun cur => do
    match ← sgFindInnerO key i (fuel + 1) prev cur with
    | .inl p => pure (.inl p)
    | .inr prev => sgFindOuterO fuel key i prev

/-- `skipListOrdered.doFindNode`, `/repo/skiplist.go:288-310`. -/
def sgDoFindNode [GoOrd K] (fuel : Nat) (key : K) (eq : Bool) : SGThread K V (Option Nat) := .level fun l => do
  match ← sgFindOuterO fuel key l .head with
  | .inl p => pure (some p)
  | .inr prev => if eq then pure none else .next prev 0 .ret

/-- `skipListOrdered.upperBound`, `/repo/skiplist.go:316-322`. -/
def sgUpperBoundO [GoOrd K] (fuel : Nat) (key : K) : SGThread K V (Option Nat) := do
  match ← sgDoFindNode fuel key false with
  | none => pure none
  | some p => .key p fun a => if GoEq.eq a key then .next (.node p) 0 .ret else .ret (some p)

/-- Inner loop of `skipListFunc.lowerBound`, `/repo/skiplist.go:393-402`. -/
def sgFindInnerF (keyCmp : K → K → Int) (key : K) (i : Nat) : (fuel : Nat) → (prev : Ref) → (cur : Option Nat) → SGThread K V (Nat ⊕ Ref)
  | 0, _, _ => .diverge
  | _ + 1, prev, none => .ret (.inr prev)
  | fuel + 1, prev, some cur => .key cur fun a =>
    if keyCmp a key = 0 then .ret (.inl cur)
    else if keyCmp a key > 0 then .ret (.inr prev)
    else .next (.node cur) i fun nx => sgFindInnerF keyCmp key i fuel (.node cur) nx

/-- Outer loop of `skipListFunc.lowerBound`, `/repo/skiplist.go:391-403`. -/
def sgFindOuterF (keyCmp : K → K → Int) (fuel : Nat) (key : K) : Nat → Ref → SGThread K V (Nat ⊕ Ref)
  | 0, prev => .ret (.inr prev)
  | i + 1, prev => .next prev i fun cur => do
    match ← sgFindInnerF keyCmp key i (fuel + 1) prev cur with
    | .inl p => pure (.inl p)
    | .inr prev => sgFindOuterF keyCmp fuel key i prev

/-- `skipListFunc.lowerBound`, `/repo/skiplist.go:389-405`. -/
def sgLowerBoundF (keyCmp : K → K → Int) (fuel : Nat) (key : K) : SGThread K V (Option Nat) := .level fun l => do
  match ← sgFindOuterF keyCmp fuel key l .head with
  | .inl p => pure (some p)
  | .inr prev => .next prev 0 .ret

/-- `skipListFunc.findNode`, `/repo/skiplist.go:381-387`. -/
def sgFindNodeF (keyCmp : K → K → Int) (fuel : Nat) (key : K) : SGThread K V (Option Nat) := do
  match ← sgLowerBoundF keyCmp fuel key with
  | none => pure none
  | some p => .key p fun a => if keyCmp a key = 0 then .ret (some p) else .ret none

/-- `skipListFunc.upperBound`, `/repo/skiplist.go:407-413`. -/
def sgUpperBoundF (keyCmp : K → K → Int) (fuel : Nat) (key : K) : SGThread K V (Option Nat) := do
  match ← sgLowerBoundF keyCmp fuel key with
  | none => pure none
  | some p => .key p fun a => if keyCmp a key = 0 then .next (.node p) 0 .ret else .ret (some p)

/-- Dispatch of `impl.findNode`, `/repo/skiplist.go:246`. -/
def sgFindNode (impl : SLImpl K) (fuel : Nat) (key : K) : SGThread K V (Option Nat) :=
  match impl with
  | .ordered _ => sgDoFindNode fuel key true
  | .func keyCmp => sgFindNodeF keyCmp fuel key

/-- Dispatch of `impl.lowerBound`, `/repo/skiplist.go:247`. -/
def sgLowerBound (impl : SLImpl K) (fuel : Nat) (key : K) : SGThread K V (Option Nat) :=
  match impl with
  | .ordered _ => sgDoFindNode fuel key false
  | .func keyCmp => sgLowerBoundF keyCmp fuel key

/-- Dispatch of `impl.upperBound`, `/repo/skiplist.go:248`. -/
def sgUpperBound (impl : SLImpl K) (fuel : Nat) (key : K) : SGThread K V (Option Nat) :=
  match impl with
  | .ordered _ => sgUpperBoundO fuel key
  | .func keyCmp => sgUpperBoundF keyCmp fuel key

/-! ## Loops -/

/-- Loop of `ForEach`, `/repo/skiplist.go:174-176`, with a callback that collects what it is given. -/
def sgForEachLoop : (fuel : Nat) → Option Nat → List (K × V) → SGThread K V (List (K × V))
  | 0, _, _ => .diverge
  | _ + 1, none, l => .ret l
  | fuel + 1, some e, l => .key e fun a => .value e fun v => .next (.node e) 0 fun nx => sgForEachLoop fuel nx (l ++ [(a, v)])

/-- Loop of `ForEachMutable`, `/repo/skiplist.go:181-183`, with the callback `func(k K, p *V) { *p = f(k, *p) }`. -/
def sgForEachMutableLoop (f : K → V → V) : (fuel : Nat) → Option Nat → SGThread K V Unit
  | 0, _ => .diverge
  | _ + 1, none => .ret ()
  | fuel + 1, some e => .key e fun a => .value e fun v => .setValue e (f a v) (.next (.node e) 0 fun nx => sgForEachMutableLoop f fuel nx)

/-! ## Calls -/

/-- What a goroutine does with the list (`/repo/skiplist.go:71-183`). `find k` is `if p := Find(k); p != nil { use *p }`, `update k f` is `if p := Find(k); p != nil { *p = f(*p) }`, the bounds look at the key of the
iterator if it is not at the end. -/
inductive SGCall (K V : Type) where
  | find (k : K)
  | has (k : K)
  | update (k : K) (f : V → V)
  | lowerBound (k : K)
  | upperBound (k : K)
  | len
  | forEach
  | forEachMutable (f : K → V → V)

/-- What it gets (`/repo/skiplist.go:71-183`). -/
inductive SGRet (K V : Type) where
  | unit
  | val (v : Option V)
  | flag (b : Bool)
  | key (k : Option K)
  | num (n : Int)
  | entries (l : List (K × V))
deriving DecidableEq, Repr

/-- The key of an iterator, if it is not at the end (`/repo/skiplist.go:219-229`). -/
def sgKeyOf : Option Nat → SGThread K V (SGRet K V)
  | none => .ret (.key none)
  | some p => .key p fun a => .ret (.key (some a))

/-- The goroutine (`/repo/skiplist.go:71-183`). -/
def SGCall.thread (impl : SLImpl K) (fuel : Nat) : SGCall K V → SGThread K V (SGRet K V)
  | .find k => do
    match ← sgFindNode impl fuel k with
    | none => pure (.val none)
    | some p => .value p fun v => .ret (.val (some v))
  | .has k => do
    let p ← sgFindNode impl fuel k
    pure (.flag p.isSome)
  | .update k f => do
    match ← sgFindNode impl fuel k with
    | none => pure (.flag false)
    | some p => .value p fun v => .setValue p (f v) (.ret (.flag true))
  | .lowerBound k => do
    let p ← sgLowerBound impl fuel k
    sgKeyOf p
  | .upperBound k => do
    let p ← sgUpperBound impl fuel k
    sgKeyOf p
  | .len => .len fun n => .ret (.num n)
  | .forEach => .next .head 0 fun e => do
    let l ← sgForEachLoop (fuel + 1) e []
    pure (.entries l)
  | .forEachMutable f => .next .head 0 fun e => do
    sgForEachMutableLoop f (fuel + 1) e
    pure .unit

/-- The same call taken as one step, by the functions of `Model/SkipList.lean` (`/repo/skiplist.go:71-183`). -/
def SGCall.call (impl : SLImpl K) (sl : SL K V) : SGCall K V → Outcome (SGRet K V × SL K V)
  | .find k => do
    match ← sl.find impl k with
    | none => return (.val none, sl)
    | some p => do
      let v ← sl.readPtr p
      return (.val (some v), sl)
  | .has k => do
    let b ← sl.has impl k
    return (.flag b, sl)
  | .update k f => do
    match ← sl.find impl k with
    | none => return (.flag false, sl)
    | some p => do
      let v ← sl.readPtr p
      let sl ← sl.setValue p (f v)
      return (.flag true, sl)
  | .lowerBound k => do
    let it ← sl.lowerBoundIter impl k
    if it.isNotEnd then do
      let a ← it.key sl
      return (.key (some a), sl)
    else return (.key none, sl)
  | .upperBound k => do
    let it ← sl.upperBoundIter impl k
    if it.isNotEnd then do
      let a ← it.key sl
      return (.key (some a), sl)
    else return (.key none, sl)
  | .len => .ret (.num sl.length, sl)
  | .forEach => do
    let r ← SL.forEach (fun s k v => .ret (s.1, s.2 ++ [(k, v)])) (sl, ([] : List (K × V)))
    return (.entries r.2, r.1)
  | .forEachMutable f => do
    let r ← SL.forEachMutable (fun (s : SL K V × Unit) k p => do let v ← s.1.readPtr p; let sl ← s.1.setValue p (f k v); return (sl, ())) (sl, ())
    return (.unit, r.1)

end Stl4go
