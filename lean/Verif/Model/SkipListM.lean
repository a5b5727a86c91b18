import Verif.Model.SkipList
/-!
# Model of `/repo/skiplist.go` with a compare function that is Go code

In `Model/SkipList.lean` a compare function is a mathematical function. Here it is Go code: it may keep a state, panic or never
return. So it matters how often, in which order and with which arguments it is called, and in what state a panic leaves the list.
`prevs` shares its array with `prevsCache`, and every `prevs[i] = prev` is written there at once.
The parts of `Insert` and `Remove` after the search call no client code; they are taken from `Model/SkipList.lean` as one step.
Not modelled here: a compare function that uses the list it belongs to (`Model/SkipListReenter.lean`).
-/
namespace Stl4go
variable {K V τ α : Type}

/-- A compare function, `CompareFn` (`/repo/types.go:51`). -/
abbrev CmpM (K τ : Type) := K → K → GoM τ Int

/-- A skip list and the state of its compare function (`/repo/skiplist.go:376-379`). -/
structure SLS (K V τ : Type) where
  sl : SL K V
  st : τ

/-- A statement that only looks at the list (`/repo/skiplist.go:392`). -/
def SLS.read (f : SL K V → Outcome α) : GoM (SLS K V τ) α := fun s =>
  match f s.sl with
  | .ret a => .ok a s
  | .panic => .panic s
  | .diverge => .diverge

/-- A statement that changes the list (`/repo/skiplist.go:435`). -/
def SLS.write (f : SL K V → Outcome (SL K V × α)) : GoM (SLS K V τ) α := fun s =>
  match f s.sl with
  | .ret (sl, a) => .ok a { s with sl := sl }
  | .panic => .panic s
  | .diverge => .diverge

/-- A call of the compare function (`/repo/skiplist.go:394`). -/
def SLS.call (x : GoM τ α) : GoM (SLS K V τ) α := fun s =>
  match x s.st with
  | .ok a t => .ok a { s with st := t }
  | .panic t => .panic { s with st := t }
  | .diverge => .diverge

/-! ## Searching -/

/-- Inner loop of `skipListFunc.lowerBound`, `/repo/skiplist.go:393-402`; `fuel` bounds the number of rounds. -/
def SLM.lowerBoundInner (keyCmp : CmpM K τ) (key : K) (i : Nat) :
    (fuel : Nat) → (prev : Ref) → (cur : Option Nat) → GoM (SLS K V τ) (Nat ⊕ Ref)
  | 0, _, _ => GoM.diverge
  | _ + 1, prev, none => pure (.inr prev)
  | fuel + 1, prev, some cur => do
    let n ← SLS.read (·.deref cur)
    let cmpRet ← SLS.call (keyCmp n.key key)
    if cmpRet = 0 then pure (.inl cur)
    else if cmpRet > 0 then pure (.inr prev)
    else do
      let nx ← SLS.read (fun sl => do let n ← sl.deref cur; idx n.next i)
      SLM.lowerBoundInner keyCmp key i fuel (.node cur) nx

/-- Outer loop of `skipListFunc.lowerBound`, `/repo/skiplist.go:391-403`; `n` is the number of nodes. -/
def SLM.lowerBoundOuter (keyCmp : CmpM K τ) (key : K) (n : Nat) : Nat → Ref → GoM (SLS K V τ) (Nat ⊕ Ref)
  | 0, prev => pure (.inr prev)
  | i + 1, prev => do
    let cur ← SLS.read (·.nextAt prev i)
    let r ← SLM.lowerBoundInner keyCmp key i (n + 1) prev cur
    match r with
    | .inl p => pure (.inl p)
    | .inr prev => SLM.lowerBoundOuter keyCmp key n i prev

/-- `skipListFunc.lowerBound`, `/repo/skiplist.go:389-405`. -/
def SLM.lowerBound (keyCmp : CmpM K τ) (key : K) : GoM (SLS K V τ) (Option Nat) := do
  let sl ← SLS.read .ret
  let r ← SLM.lowerBoundOuter keyCmp key sl.nodes.length sl.level .head
  match r with
  | .inl p => pure (some p)
  | .inr prev => SLS.read (·.nextAt prev 0)

/-- `skipListFunc.findNode`, `/repo/skiplist.go:381-387`. -/
def SLM.findNode (keyCmp : CmpM K τ) (key : K) : GoM (SLS K V τ) (Option Nat) := do
  let node ← SLM.lowerBound keyCmp key
  match node with
  | none => pure none
  | some p => do
    let n ← SLS.read (·.deref p)
    let r ← SLS.call (keyCmp n.key key)
    if r = 0 then pure (some p) else pure none

/-- `skipListFunc.upperBound`, `/repo/skiplist.go:407-413`. -/
def SLM.upperBound (keyCmp : CmpM K τ) (key : K) : GoM (SLS K V τ) (Option Nat) := do
  let node ← SLM.lowerBound keyCmp key
  match node with
  | none => pure none
  | some p => do
    let n ← SLS.read (·.deref p)
    let r ← SLS.call (keyCmp n.key key)
    if r = 0 then SLS.read (fun sl => do let n ← sl.deref p; idx n.next 0) else pure (some p)

/-- Inner loop of `skipListFunc.findInsertPoint`, `/repo/skiplist.go:421-434`. -/
def SLM.findInsertInner (keyCmp : CmpM K τ) (key : K) (i : Nat) :
    (fuel : Nat) → (prev : Ref) → (cur : Option Nat) → GoM (SLS K V τ) (Nat ⊕ Ref)
  | 0, _, _ => GoM.diverge
  | _ + 1, prev, none => pure (.inr prev)
  | fuel + 1, prev, some cur => do
    let n ← SLS.read (·.deref cur)
    let r ← SLS.call (keyCmp n.key key)
    if r = 0 then pure (.inl cur)
    else if r > 0 then pure (.inr prev)
    else do
      let nx ← SLS.read (fun sl => do let n ← sl.deref cur; idx n.next i)
      SLM.findInsertInner keyCmp key i fuel (.node cur) nx

/-- `prevs[i] = prev` where `prevs` is `sl.prevsCache[0:level]`, `/repo/skiplist.go:435,460`. -/
def SL.setPrev (level i : Nat) (prev : Ref) (sl : SL K V) : Outcome (SL K V × Unit) :=
  if i < level then do
    let c ← setIdx sl.prevsCache i (some prev)
    return ({ sl with prevsCache := c }, ())
  else .panic

/-- Outer loop of `skipListFunc.findInsertPoint`, `/repo/skiplist.go:420-436`; `level` is the length of `prevs`. -/
def SLM.findInsertOuter (keyCmp : CmpM K τ) (key : K) (n level : Nat) : Nat → Ref → GoM (SLS K V τ) (Option Nat)
  | 0, _ => pure none
  | i + 1, prev => do
    let cur ← SLS.read (·.nextAt prev i)
    let r ← SLM.findInsertInner keyCmp key i (n + 1) prev cur
    match r with
    | .inl p => pure (some p)
    | .inr prev => do
      SLS.write (SL.setPrev level i prev)
      SLM.findInsertOuter keyCmp key n level i prev

/-- `skipListFunc.findInsertPoint`, `/repo/skiplist.go:417-438`; the contents of `prevs` are read when it returns. -/
def SLM.findInsertPoint (keyCmp : CmpM K τ) (key : K) : GoM (SLS K V τ) (Option Nat × List (Option Ref)) := do
  let _ ← SLS.read SL.prevsSlice
  let sl ← SLS.read .ret
  let node ← SLM.findInsertOuter keyCmp key sl.nodes.length sl.level sl.level .head
  match node with
  | some p => pure (some p, [])
  | none => do
    let prevs ← SLS.read SL.prevsSlice
    pure (none, prevs)

/-- Inner loop of `skipListFunc.findPrevNodes`, `/repo/skiplist.go:454-459`. -/
def SLM.findPrevInner (keyCmp : CmpM K τ) (key : K) (i : Nat) :
    (fuel : Nat) → (prev : Ref) → (next : Option Nat) → GoM (SLS K V τ) Ref
  | 0, _, _ => GoM.diverge
  | _ + 1, prev, none => pure prev
  | fuel + 1, prev, some next => do
    let n ← SLS.read (·.deref next)
    let r ← SLS.call (keyCmp n.key key)
    if r ≥ 0 then pure prev
    else do
      let nx ← SLS.read (fun sl => do let n ← sl.deref next; idx n.next i)
      SLM.findPrevInner keyCmp key i fuel (.node next) nx

/-- Outer loop of `skipListFunc.findPrevNodes`, `/repo/skiplist.go:453-461`. -/
def SLM.findPrevOuter (keyCmp : CmpM K τ) (key : K) (n level : Nat) : Nat → Ref → GoM (SLS K V τ) Unit
  | 0, _ => pure ()
  | i + 1, prev => do
    let cur ← SLS.read (·.nextAt prev i)
    let prev ← SLM.findPrevInner keyCmp key i (n + 1) prev cur
    SLS.write (SL.setPrev level i prev)
    SLM.findPrevOuter keyCmp key n level i prev

/-- `skipListFunc.findPrevNodes`, `/repo/skiplist.go:450-463`. -/
def SLM.findPrevNodes (keyCmp : CmpM K τ) (key : K) : GoM (SLS K V τ) (List (Option Ref)) := do
  let _ ← SLS.read SL.prevsSlice
  let sl ← SLS.read .ret
  SLM.findPrevOuter keyCmp key sl.nodes.length sl.level sl.level .head
  SLS.read SL.prevsSlice

/-- `skipListFunc.findRemovePoint`, `/repo/skiplist.go:441-448`. -/
def SLM.findRemovePoint (keyCmp : CmpM K τ) (key : K) : GoM (SLS K V τ) (Option (Nat × List (Option Ref))) := do
  let prevs ← SLM.findPrevNodes keyCmp key
  let node ← SLS.read (fun sl => do let r ← prevAt prevs 0; sl.nextAt r 0)
  match node with
  | none => pure none
  | some p => do
    let n ← SLS.read (·.deref p)
    let r ← SLS.call (keyCmp n.key key)
    if r ≠ 0 then pure none else pure (some (p, prevs))

/-! ## Methods -/

/-- `Insert` after `findInsertPoint`, `/repo/skiplist.go:94-117`: the statements of `SL.insert` after the search. -/
def SL.insertAt (rnd : Nat) (key : K) (value : V) (node : Option Nat) (prevs : List (Option Ref)) (sl : SL K V) : Outcome (SL K V) :=
  match node with
  | some p => sl.setValue p value
  | none => do
    let level ← sl.randomLevel rnd
    let (sl, node) ← sl.newNode level key value
    let sl ← SL.insertLinks node prevs (min2 level sl.level) 0 sl
    let sl ← if level > sl.level then do
                let s ← SL.raiseHead node (level - sl.level) sl.level sl
                pure { s with level := level }
              else pure sl
    return { sl with len := sl.len + 1 }

/-- `Insert`, `/repo/skiplist.go:91-118`. -/
def SLM.insert (keyCmp : CmpM K τ) (rnd : Nat) (key : K) (value : V) : GoM (SLS K V τ) Unit := do
  let r ← SLM.findInsertPoint keyCmp key
  SLS.write (fun sl => do let sl ← sl.insertAt rnd key value r.1 r.2; return (sl, ()))

/-- `Remove` after `findRemovePoint`, `/repo/skiplist.go:158-169`: the statements of `SL.remove` after the search. -/
def SL.removeAt (found : Option (Nat × List (Option Ref))) (sl : SL K V) : Outcome (SL K V × Bool) :=
  match found with
  | none => .ret (sl, false)
  | some (p, prevs) => do
    let n ← sl.deref p
    let sl ← SL.unlink p prevs n.next.length 0 sl
    let sl ← SL.lowerLevel (sl.level + 1) sl
    return ({ sl with len := sl.len - 1 }, true)

/-- `Remove`, `/repo/skiplist.go:156-170`. -/
def SLM.remove (keyCmp : CmpM K τ) (key : K) : GoM (SLS K V τ) Bool := do
  let found ← SLM.findRemovePoint keyCmp key
  SLS.write (SL.removeAt found)

/-- `Find`, `/repo/skiplist.go:122-128`. -/
def SLM.find (keyCmp : CmpM K τ) (key : K) : GoM (SLS K V τ) (Option Nat) := SLM.findNode keyCmp key

/-- `Has`, `/repo/skiplist.go:131-133`. -/
def SLM.has (keyCmp : CmpM K τ) (key : K) : GoM (SLS K V τ) Bool := do
  let node ← SLM.findNode keyCmp key
  pure node.isSome

/-- `LowerBound`, `/repo/skiplist.go:138-140`. -/
def SLM.lowerBoundIter (keyCmp : CmpM K τ) (key : K) : GoM (SLS K V τ) SLIter := do
  let p ← SLM.lowerBound keyCmp key
  pure { node := p, stop := none }

/-- `UpperBound`, `/repo/skiplist.go:145-147`. -/
def SLM.upperBoundIter (keyCmp : CmpM K τ) (key : K) : GoM (SLS K V τ) SLIter := do
  let p ← SLM.upperBound keyCmp key
  pure { node := p, stop := none }

/-- `FindRange`, `/repo/skiplist.go:150-152`. -/
def SLM.findRange (keyCmp : CmpM K τ) (first last : K) : GoM (SLS K V τ) SLIter := do
  let a ← SLM.lowerBound keyCmp first
  let b ← SLM.upperBound keyCmp last
  pure { node := a, stop := b }

end Stl4go
