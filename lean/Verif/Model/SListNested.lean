import Verif.Spec.SListCursor
import Verif.Model.DListNested
/-!
# Model of the `ForEach` methods of `/repo/slist.go` with callbacks that use any lists and run loops themselves

As `Model/DListNested.lean`: client code is a program over all list variables, iterators and loops.
-/
namespace Stl4go
variable {T σ : Type}

/-- Load a node (`/repo/slist.go:136`); nil panics. -/
def LCWorld.load (p : Option Nat) : GoM (LCWorld T) (LNode T) := fun w =>
  match LS.load p w.free with
  | .ok n _ => .ok n w
  | _ => .panic w

/-- Keep `&node.value` (`/repo/slist.go:161`) in variable `c`. -/
def LCWorld.keepPtr (c : Nat) (n : Option Nat) : GoM (LCWorld T) Unit := fun w =>
  .ok () { w with curs := fun x => if x = c then ⟨n⟩ else w.curs x }

/-- Loop of `ForEach`, `/repo/slist.go:135-137`. -/
def LL.forEachLoopW (cb : σ → T → GoM (LCWorld T) σ) : (fuel : Nat) → Option Nat → σ → GoM (LCWorld T) σ
  | 0, _, _ => GoM.diverge
  | fuel + 1, n, t =>
    if n ≠ none then do
      let nd ← LCWorld.load n
      let t ← cb t nd.value
      let nd ← LCWorld.load n
      LL.forEachLoopW cb fuel nd.next t
    else pure t

/-- `ForEach`, `/repo/slist.go:134-138`. -/
def LL.forEachW (fuel i : Nat) (cb : σ → T → GoM (LCWorld T) σ) (t : σ) : GoM (LCWorld T) σ := do
  let w ← GoM.get
  LL.forEachLoopW cb fuel (w.vars i).head t

/-- Loop of `ForEachIf`, `/repo/slist.go:143-147`. -/
def LL.forEachIfLoopW (cb : σ → T → GoM (LCWorld T) (σ × Bool)) : (fuel : Nat) → Option Nat → σ → GoM (LCWorld T) σ
  | 0, _, _ => GoM.diverge
  | fuel + 1, n, t =>
    if n ≠ none then do
      let nd ← LCWorld.load n
      let r ← cb t nd.value
      if r.2 = false then return r.1
      else
        let nd ← LCWorld.load n
        LL.forEachIfLoopW cb fuel nd.next r.1
    else pure t

/-- `ForEachIf`, `/repo/slist.go:142-148`. -/
def LL.forEachIfW (fuel i : Nat) (cb : σ → T → GoM (LCWorld T) (σ × Bool)) (t : σ) : GoM (LCWorld T) σ := do
  let w ← GoM.get
  LL.forEachIfLoopW cb fuel (w.vars i).head t

/-- Loop of `ForEachMutable`, `/repo/slist.go:152-154`. -/
def LL.forEachMutableLoopW (c : Nat) (cb : σ → GoM (LCWorld T) σ) : (fuel : Nat) → Option Nat → σ → GoM (LCWorld T) σ
  | 0, _, _ => GoM.diverge
  | fuel + 1, n, t =>
    if n ≠ none then do
      let _ ← LCWorld.load n
      LCWorld.keepPtr c n
      let t ← cb t
      let nd ← LCWorld.load n
      LL.forEachMutableLoopW c cb fuel nd.next t
    else pure t

/-- `ForEachMutable`, `/repo/slist.go:151-155`. -/
def LL.forEachMutableW (fuel c i : Nat) (cb : σ → GoM (LCWorld T) σ) (t : σ) : GoM (LCWorld T) σ := do
  let w ← GoM.get
  LL.forEachMutableLoopW c cb fuel (w.vars i).head t

/-- Loop of `ForEachMutableIf`, `/repo/slist.go:160-164`. -/
def LL.forEachMutableIfLoopW (c : Nat) (cb : σ → GoM (LCWorld T) (σ × Bool)) : (fuel : Nat) → Option Nat → σ → GoM (LCWorld T) σ
  | 0, _, _ => GoM.diverge
  | fuel + 1, n, t =>
    if n ≠ none then do
      let _ ← LCWorld.load n
      LCWorld.keepPtr c n
      let r ← cb t
      if r.2 = false then return r.1
      else
        let nd ← LCWorld.load n
        LL.forEachMutableIfLoopW c cb fuel nd.next r.1
    else pure t

/-- `ForEachMutableIf`, `/repo/slist.go:159-165`. -/
def LL.forEachMutableIfW (fuel c i : Nat) (cb : σ → GoM (LCWorld T) (σ × Bool)) (t : σ) : GoM (LCWorld T) σ := do
  let w ← GoM.get
  LL.forEachMutableIfLoopW c cb fuel (w.vars i).head t

/-- A method call of the client (`/repo/slist.go:136`, in the callback): a panic ends the client code. -/
def LCWorld.call [GoZero T] (op : LCOp T) : GoM (LCWorld T) (DObs T) := fun w =>
  match w.step op with
  | (.panicked, w') => .panic w'
  | (.hung, _) => .diverge
  | (o, w') => .ok o w'

/-- Run client code (passed as `cb`, `/repo/slist.go:142`); every loop takes at most `fuel` rounds. -/
def EProg.execL [GoZero T] (fuel : Nat) : {α : Type} → EProg (LCOp T) T α → GoM (LCWorld T) α
  | _, .ret a => pure a
  | _, .panic => GoM.panic
  | _, .hang => GoM.diverge
  | _, .call op k => do
    let o ← LCWorld.call op
    (k o).execL fuel
  | _, .each i cb t k => do
    let t ← LL.forEachIfW fuel i (fun t v => (cb t v).execL fuel) t
    (k t).execL fuel
  | _, .eachPtr c i cb t k => do
    let t ← LL.forEachMutableIfW fuel c i (fun t => (cb t).execL fuel) t
    (k t).execL fuel

end Stl4go
