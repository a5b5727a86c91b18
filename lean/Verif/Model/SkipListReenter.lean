import Verif.Spec.SkipListM
/-!
# Model of `/repo/skiplist.go` with a compare function that uses the list it belongs to

As `Model/SkipListM.lean`, but the compare function may call the methods of its own list, also those that change it: it acts on the list and
on its own variables. The loops read the links when they come to them. `prevs` keeps the length it had when the search began.

Methods called by the compare function call the compare function in turn: `CmpCode.at` is the compare function for a stack of a given depth;
with no stack left it does not return.
Simplified: the number of rounds of a loop is limited by the number of nodes when it began, so that if the compare function inserts during a
search of many rounds the model may say `diverge` where the code goes on. No theorem says anything about such a search.
-/
namespace Stl4go
variable {K V τ α : Type}

/-- A compare function (`/repo/types.go:51`) that can use the list and its own variables. -/
abbrev CmpR (K V τ : Type) := K → K → GoM (SLS K V τ) Int

/-! ## Searching -/

/-- Inner loop of `skipListFunc.lowerBound`, `/repo/skiplist.go:393-402`; `fuel` bounds the number of rounds. -/
def SLR.lowerBoundInner (keyCmp : CmpR K V τ) (key : K) (i : Nat) :
    (fuel : Nat) → (prev : Ref) → (cur : Option Nat) → GoM (SLS K V τ) (Nat ⊕ Ref)
  | 0, _, _ => GoM.diverge
  | _ + 1, prev, none => pure (.inr prev)
  | fuel + 1, prev, some cur => do
    let n ← SLS.read (·.deref cur)
    let cmpRet ← keyCmp n.key key
    if cmpRet = 0 then pure (.inl cur)
    else if cmpRet > 0 then pure (.inr prev)
    else do
      let nx ← SLS.read (fun sl => do let n ← sl.deref cur; idx n.next i)
      SLR.lowerBoundInner keyCmp key i fuel (.node cur) nx

/-- Outer loop of `skipListFunc.lowerBound`, `/repo/skiplist.go:391-403`; `n` is the number of nodes. -/
def SLR.lowerBoundOuter (keyCmp : CmpR K V τ) (key : K) (n : Nat) : Nat → Ref → GoM (SLS K V τ) (Nat ⊕ Ref)
  | 0, prev => pure (.inr prev)
  | i + 1, prev => do
    let cur ← SLS.read (·.nextAt prev i)
    let r ← SLR.lowerBoundInner keyCmp key i (n + 1) prev cur
    match r with
    | .inl p => pure (.inl p)
    | .inr prev => SLR.lowerBoundOuter keyCmp key n i prev

/-- `skipListFunc.lowerBound`, `/repo/skiplist.go:389-405`. -/
def SLR.lowerBound (keyCmp : CmpR K V τ) (key : K) : GoM (SLS K V τ) (Option Nat) := do
  let sl ← SLS.read .ret
  let r ← SLR.lowerBoundOuter keyCmp key sl.nodes.length sl.level .head
  match r with
  | .inl p => pure (some p)
  | .inr prev => SLS.read (·.nextAt prev 0)

/-- `skipListFunc.findNode`, `/repo/skiplist.go:381-387`. -/
def SLR.findNode (keyCmp : CmpR K V τ) (key : K) : GoM (SLS K V τ) (Option Nat) := do
  let node ← SLR.lowerBound keyCmp key
  match node with
  | none => pure none
  | some p => do
    let n ← SLS.read (·.deref p)
    let r ← keyCmp n.key key
    if r = 0 then pure (some p) else pure none

/-- `skipListFunc.upperBound`, `/repo/skiplist.go:407-413`. -/
def SLR.upperBound (keyCmp : CmpR K V τ) (key : K) : GoM (SLS K V τ) (Option Nat) := do
  let node ← SLR.lowerBound keyCmp key
  match node with
  | none => pure none
  | some p => do
    let n ← SLS.read (·.deref p)
    let r ← keyCmp n.key key
    if r = 0 then SLS.read (fun sl => do let n ← sl.deref p; idx n.next 0) else pure (some p)

/-- Inner loop of `skipListFunc.findInsertPoint`, `/repo/skiplist.go:421-434`. -/
def SLR.findInsertInner (keyCmp : CmpR K V τ) (key : K) (i : Nat) :
    (fuel : Nat) → (prev : Ref) → (cur : Option Nat) → GoM (SLS K V τ) (Nat ⊕ Ref)
  | 0, _, _ => GoM.diverge
  | _ + 1, prev, none => pure (.inr prev)
  | fuel + 1, prev, some cur => do
    let n ← SLS.read (·.deref cur)
    let r ← keyCmp n.key key
    if r = 0 then pure (.inl cur)
    else if r > 0 then pure (.inr prev)
    else do
      let nx ← SLS.read (fun sl => do let n ← sl.deref cur; idx n.next i)
      SLR.findInsertInner keyCmp key i fuel (.node cur) nx

/-- Outer loop of `skipListFunc.findInsertPoint`, `/repo/skiplist.go:420-436`; `level` is the length of `prevs`. -/
def SLR.findInsertOuter (keyCmp : CmpR K V τ) (key : K) (n level : Nat) : Nat → Ref → GoM (SLS K V τ) (Option Nat)
  | 0, _ => pure none
  | i + 1, prev => do
    let cur ← SLS.read (·.nextAt prev i)
    let r ← SLR.findInsertInner keyCmp key i (n + 1) prev cur
    match r with
    | .inl p => pure (some p)
    | .inr prev => do
      SLS.write (SL.setPrev level i prev)
      SLR.findInsertOuter keyCmp key n level i prev

/-- `skipListFunc.findInsertPoint`, `/repo/skiplist.go:417-438`; the contents of `prevs` are read when it returns. -/
def SLR.findInsertPoint (keyCmp : CmpR K V τ) (key : K) : GoM (SLS K V τ) (Option Nat × List (Option Ref)) := do
  let prevs ← SLS.read SL.prevsSlice
  let sl ← SLS.read .ret
  let node ← SLR.findInsertOuter keyCmp key sl.nodes.length prevs.length sl.level .head
  match node with
  | some p => pure (some p, [])
  | none => do
    let prevs ← SLS.read (fun sl => .ret (sl.prevsCache.take prevs.length))
    pure (none, prevs)

/-- Inner loop of `skipListFunc.findPrevNodes`, `/repo/skiplist.go:454-459`. -/
def SLR.findPrevInner (keyCmp : CmpR K V τ) (key : K) (i : Nat) :
    (fuel : Nat) → (prev : Ref) → (next : Option Nat) → GoM (SLS K V τ) Ref
  | 0, _, _ => GoM.diverge
  | _ + 1, prev, none => pure prev
  | fuel + 1, prev, some next => do
    let n ← SLS.read (·.deref next)
    let r ← keyCmp n.key key
    if r ≥ 0 then pure prev
    else do
      let nx ← SLS.read (fun sl => do let n ← sl.deref next; idx n.next i)
      SLR.findPrevInner keyCmp key i fuel (.node next) nx

/-- Outer loop of `skipListFunc.findPrevNodes`, `/repo/skiplist.go:453-461`. -/
def SLR.findPrevOuter (keyCmp : CmpR K V τ) (key : K) (n level : Nat) : Nat → Ref → GoM (SLS K V τ) Unit
  | 0, _ => pure ()
  | i + 1, prev => do
    let cur ← SLS.read (·.nextAt prev i)
    let prev ← SLR.findPrevInner keyCmp key i (n + 1) prev cur
    SLS.write (SL.setPrev level i prev)
    SLR.findPrevOuter keyCmp key n level i prev

/-- `skipListFunc.findPrevNodes`, `/repo/skiplist.go:450-463`. -/
def SLR.findPrevNodes (keyCmp : CmpR K V τ) (key : K) : GoM (SLS K V τ) (List (Option Ref)) := do
  let prevs ← SLS.read SL.prevsSlice
  let sl ← SLS.read .ret
  SLR.findPrevOuter keyCmp key sl.nodes.length prevs.length sl.level .head
  SLS.read (fun sl => .ret (sl.prevsCache.take prevs.length))

/-- `skipListFunc.findRemovePoint`, `/repo/skiplist.go:441-448`. -/
def SLR.findRemovePoint (keyCmp : CmpR K V τ) (key : K) : GoM (SLS K V τ) (Option (Nat × List (Option Ref))) := do
  let prevs ← SLR.findPrevNodes keyCmp key
  let node ← SLS.read (fun sl => do let r ← prevAt prevs 0; sl.nextAt r 0)
  match node with
  | none => pure none
  | some p => do
    let n ← SLS.read (·.deref p)
    let r ← keyCmp n.key key
    if r ≠ 0 then pure none else pure (some (p, prevs))

/-! ## Methods -/

/-- `Insert`, `/repo/skiplist.go:91-118`. -/
def SLR.insert (keyCmp : CmpR K V τ) (rnd : Nat) (key : K) (value : V) : GoM (SLS K V τ) Unit := do
  let r ← SLR.findInsertPoint keyCmp key
  SLS.write (fun sl => do let sl ← sl.insertAt rnd key value r.1 r.2; return (sl, ()))

/-- `Remove`, `/repo/skiplist.go:156-170`. -/
def SLR.remove (keyCmp : CmpR K V τ) (key : K) : GoM (SLS K V τ) Bool := do
  let found ← SLR.findRemovePoint keyCmp key
  SLS.write (SL.removeAt found)

/-- `Find`, `/repo/skiplist.go:122-128`. -/
def SLR.find (keyCmp : CmpR K V τ) (key : K) : GoM (SLS K V τ) (Option Nat) := SLR.findNode keyCmp key

/-- `Has`, `/repo/skiplist.go:131-133`. -/
def SLR.has (keyCmp : CmpR K V τ) (key : K) : GoM (SLS K V τ) Bool := do
  let node ← SLR.findNode keyCmp key
  pure node.isSome

/-- `LowerBound`, `/repo/skiplist.go:138-140`. -/
def SLR.lowerBoundIter (keyCmp : CmpR K V τ) (key : K) : GoM (SLS K V τ) SLIter := do
  let p ← SLR.lowerBound keyCmp key
  pure { node := p, stop := none }

/-- `UpperBound`, `/repo/skiplist.go:145-147`. -/
def SLR.upperBoundIter (keyCmp : CmpR K V τ) (key : K) : GoM (SLS K V τ) SLIter := do
  let p ← SLR.upperBound keyCmp key
  pure { node := p, stop := none }

/-- `FindRange`, `/repo/skiplist.go:150-152`. -/
def SLR.findRange (keyCmp : CmpR K V τ) (first last : K) : GoM (SLS K V τ) SLIter := do
  let a ← SLR.lowerBound keyCmp first
  let b ← SLR.upperBound keyCmp last
  pure { node := a, stop := b }

/-- One operation; `iterate` and the bounds stand for the iteration from there (`/repo/skiplist.go:91-170`). -/
def SLR.exec (keyCmp : CmpR K V τ) (rnd : Nat) : SMOp K V → GoM (SLS K V τ) (SMObs K V)
  | .insert k v => do
    SLR.insert keyCmp rnd k v
    pure .unit
  | .remove k => do
    let b ← SLR.remove keyCmp k
    pure (.flag b)
  | .clear => SLS.write (fun sl => .ret (sl.clear, .unit))
  | .update k v => do
    let r ← SLR.find keyCmp k
    match r with
    | none => pure (.flag false)
    | some p => SLS.write (fun sl => do let sl ← sl.setValue p v; return (sl, .flag true))
  | .find k => do
    let r ← SLR.find keyCmp k
    match r with
    | none => pure (.val none)
    | some p => SLS.read (fun sl => do let v ← sl.readPtr p; return .val (some v))
  | .has k => do
    let b ← SLR.has keyCmp k
    pure (.flag b)
  | .len => SLS.read (fun sl => .ret (.num sl.length))
  | .isEmpty => SLS.read (fun sl => .ret (.flag sl.isEmpty))
  | .iterate => SLS.read (fun sl => do let it ← sl.iterate; let l ← sl.observeIter it; return .entries l)
  | .lowerBound k => do
    let it ← SLR.lowerBoundIter keyCmp k
    SLS.read (fun sl => do let l ← sl.observeIter it; return .entries l)
  | .upperBound k => do
    let it ← SLR.upperBoundIter keyCmp k
    SLS.read (fun sl => do let l ← sl.observeIter it; return .entries l)

/-! ## Compare functions as code -/

/-- The code of a compare function of type `CompareFn` (`/repo/types.go:51`) that calls methods of the list. `t` is what it leaves in its variables before the
call, and it goes on with the result and the variables as they are then; if the call panicked it recovers, with `.panicked` for the result. -/
inductive CmpCode (K V τ : Type) where
  | answer (r : Int) (t : τ)
  | panics (t : τ)
  | hangs
  | call (t : τ) (rnd : Nat) (op : SMOp K V) (next : SMObs K V → τ → CmpCode K V τ)

/-- Run the code of a compare function (`/repo/types.go:51`); `exec` runs the methods. -/
def CmpCode.run (exec : Nat → SMOp K V → GoM (SLS K V τ) (SMObs K V)) : CmpCode K V τ → GoM (SLS K V τ) Int
  | .answer r t => fun s => .ok r { s with st := t }
  | .panics t => fun s => .panic { s with st := t }
  | .hangs => fun _ => .diverge
  | .call t rnd op next => fun s =>
    match exec rnd op { s with st := t } with
    | .ok ob s => CmpCode.run exec (next ob s.st) s
    | .panic s => CmpCode.run exec (next .panicked s.st) s
    | .diverge => .diverge

/-- The compare function with code `code` (`/repo/skiplist.go:378`) on a stack of depth `d`: the methods it calls call it again. -/
def CmpCode.at (code : K → K → τ → CmpCode K V τ) : (d : Nat) → CmpR K V τ
  | 0 => fun _ _ _ => .diverge
  | d + 1 => fun a b s => (code a b s.st).run (SLR.exec (CmpCode.at code d)) s

end Stl4go
