import Verif.Model.SkipList
import Verif.Spec.SkipList
/-!
# Model of `SkipList` values: copies `c := *sl`, and the zero value

The struct (`/repo/skiplist.go:28-37`) is copied field by field. `head.next` and `prevsCache` are slices, so that the copy has the same arrays; `rander` is the
same generator; `impl` is an interface that holds the pointer to the list that the constructor made (`/repo/skiplist.go:43,61`), so that every search goes
through that list, with its `level`. Only `level` and `len` are the copy's own. In the zero value `SkipList{}` `impl` is nil and `head.next` is nil.

The methods of a copy get the list of the constructor as `sl`, whose `level` and `len` they do not change. Simplified: one list and its copies (lists made by
different constructor calls have nothing in common); the level of a zero value is left out, `Clear` sets it and no method reads it before it panics.
Assignments to the list itself (`*sl = c`) are not modelled. After a panic of `Insert` or `Remove` the history is over.
-/
namespace Stl4go
variable {K V : Type}

/-- The fields `level` and `len` of a copy, `/repo/skiplist.go:29-30`. -/
structure SLOwn where
  level : Nat
  len : Int
deriving DecidableEq, Repr

/-- `Clear` of a copy, `/repo/skiplist.go:76-82`: the slice `head.next` is that of the list. -/
def SL.copyClear (sl : SL K V) : SL K V × SLOwn := ({ sl with headNext := sl.headNext.map (fun _ => none) }, { level := 1, len := 0 })

/-- `Insert` of a copy, `/repo/skiplist.go:91-118`: the search is that of the list, `sl.level` and `sl.len` (in `randomLevel`, too) are the copy's. -/
def SL.copyInsert (impl : SLImpl K) (rnd : Nat) (sl : SL K V) (own : SLOwn) (key : K) (value : V) : Outcome (SL K V × SLOwn) := do
  let (sl, node, prevs) ← sl.findInsertPoint impl key
  match node with
  | some p =>
    let sl ← sl.setValue p value
    return (sl, own)
  | none =>
    let level ← SL.randomLevel { sl with len := own.len } rnd
    let (sl, node) ← sl.newNode level key value
    let sl ← SL.insertLinks node prevs (min2 level own.level) 0 sl
    if level > own.level then do
      let sl ← SL.raiseHead node (level - own.level) own.level sl
      return (sl, { level := level, len := own.len + 1 })
    else return (sl, { level := own.level, len := own.len + 1 })

/-- `Remove` of a copy, `/repo/skiplist.go:156-170`. -/
def SL.copyRemove (impl : SLImpl K) (sl : SL K V) (own : SLOwn) (key : K) : Outcome ((SL K V × SLOwn) × Bool) := do
  let (sl, found) ← sl.findRemovePoint impl key
  match found with
  | none => return ((sl, own), false)
  | some (p, prevs) =>
    let n ← sl.deref p
    let sl ← SL.unlink p prevs n.next.length 0 sl
    let t ← SL.lowerLevel (own.level + 1) { sl with level := own.level }
    return ((sl, { level := t.level, len := own.len - 1 }), true)

/-- One client operation on a copy. `Len` and `IsEmpty`, `/repo/skiplist.go:66-73`, read the copy's counter; everything not named here
(`/repo/skiplist.go:85-87,122-152`) reads `impl` or `head.next` only. -/
def SL.execCopy (impl : SLImpl K) (rnd : Nat) (sl : SL K V) (own : SLOwn) : SMOp K V → Outcome ((SL K V × SLOwn) × SMObs K V)
  | .insert k v => do
    let r ← sl.copyInsert impl rnd own k v
    return (r, .unit)
  | .remove k => do
    let (r, b) ← sl.copyRemove impl own k
    return (r, .flag b)
  | .clear => .ret (sl.copyClear, .unit)
  | .len => .ret ((sl, own), .num own.len)
  | .isEmpty => .ret ((sl, own), .flag (own.len == 0))
  | op => do
    let (sl, ob) ← sl.exec impl rnd op
    return ((sl, own), ob)

/-- One client operation on a zero value: `Len`, `IsEmpty` and `Clear` (`/repo/skiplist.go:66-82`) work, the others use the nil `impl`
(`/repo/skiplist.go:92,123,132,139,146,157`) or index the nil slice `head.next` (`/repo/skiplist.go:86`). -/
def SL.execZero : SMOp K V → SMObs K V
  | .len => .num 0
  | .isEmpty => .flag true
  | .clear => .unit
  | _ => .panicked

/-- A variable of type `SkipList` (`/repo/skiplist.go:28`). -/
inductive SLVar where
  | zero
  | copy (own : SLOwn)
deriving DecidableEq, Repr

/-- The list of the constructor, and variables. -/
structure SLCWorld (K V : Type) where
  sl : SL K V
  vars : Nat → SLVar

/-- A statement: a method of the list (`none`) or of variable `i` (`some i`), with the random number that would be drawn; or `c_i = *sl`, `c_i = c_j`. -/
inductive SLCStmt (K V : Type) where
  | op (a : Option Nat) (rnd : Nat) (o : SMOp K V)
  | copy (i : Nat) (a : Option Nat)

/-- At the start there is a new list (`/repo/skiplist.go:40-45,57-63`), and the variables are zero. -/
def SLCWorld.init : SLCWorld K V := { sl := newSkipList, vars := fun _ => .zero }

/-- One statement. -/
def SLCWorld.step (impl : SLImpl K) (w : SLCWorld K V) : SLCStmt K V → Outcome (SMObs K V × SLCWorld K V)
  | .op none rnd o => do
    let (sl, ob) ← w.sl.exec impl rnd o
    return (ob, { w with sl := sl })
  | .op (some i) rnd o =>
    match w.vars i with
    | .zero => .ret (SL.execZero o, w)
    | .copy own => do
      let ((sl, own), ob) ← w.sl.execCopy impl rnd own o
      return (ob, { sl := sl, vars := fun j => if j = i then .copy own else w.vars j })
  | .copy i none => .ret (.unit, { w with vars := fun j => if j = i then .copy { level := w.sl.level, len := w.sl.len } else w.vars j })
  | .copy i (some k) => .ret (.unit, { w with vars := fun j => if j = i then w.vars k else w.vars j })

/-- A history. -/
def SLCWorld.run (impl : SLImpl K) : SLCWorld K V → List (SLCStmt K V) → Outcome (List (SMObs K V) × SLCWorld K V)
  | w, [] => .ret ([], w)
  | w, c :: h => do
    let (ob, w) ← w.step impl c
    let (obs, w) ← SLCWorld.run impl w h
    return (ob :: obs, w)

end Stl4go
