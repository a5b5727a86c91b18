import Verif.Spec.SList
/-!
# Model of the `ForEach` methods of `/repo/slist.go` with callbacks that use lists

The callback of a `ForEach` method is client code. Here it is a program that may call any method of any list variable, assign new lists to
them, use the answers, read and write the element it was given a pointer to, panic, or never return. The loops take an explicit fuel, since
pushing in the callback can make them endless.
-/
namespace Stl4go
variable {T α β σ : Type}

/-- Client code run by a callback. `load` and `store` go through the pointer that `ForEachMutable` hands out (`/repo/slist.go:152-154`). -/
inductive LProg (T α : Type) where
  | ret (a : α)
  | panic
  | hang
  | call (i : Nat) (op : LOp T) (k : DObs T → LProg T α)
  | load (k : T → LProg T α)
  | store (v : T) (k : LProg T α)

/-- Continue with what the program returns (client code that is passed as `cb`, `/repo/slist.go:134`). -/
def LProg.bind : LProg T α → (α → LProg T β) → LProg T β
  | .ret a, f => f a
  | .panic, _ => .panic
  | .hang, _ => .hang
  | .call i op k, f => .call i op (fun o => (k o).bind f)
  | .load k, f => .load (fun v => (k v).bind f)
  | .store v k, f => .store v (k.bind f)

/-- Access to the shared heap of nodes, `/repo/slist.go:136`; no list variable is involved. -/
def LWorld.heapOp (m : GoM (LS T) α) : GoM (LWorld T) α := fun w =>
  match m ⟨w.heap, {}⟩ with
  | .ok a s => .ok a { w with heap := s.heap }
  | .panic s => .panic { w with heap := s.heap }
  | .diverge => .diverge

/-- Run client code in the callback for node `n` (`/repo/slist.go:136`): method calls work on the list variables, a panic of one ends the
callback. -/
def LProg.exec [GoZero T] (n : Option Nat) : LProg T α → GoM (LWorld T) α
  | .ret a => pure a
  | .panic => GoM.panic
  | .hang => GoM.diverge
  | .call i op k => fun w =>
    let r := LL.exec { heap := w.heap, l := w.vars i } op
    let w' : LWorld T := { heap := r.2.heap, vars := fun j => if j = i then r.2.l else w.vars j }
    match r.1 with
    | .panicked => .panic w'
    | .hung => .diverge
    | o => (k o).exec n w'
  | .load k => do
    let nd ← LWorld.heapOp (LS.load n)
    (k nd.value).exec n
  | .store v k => do
    LWorld.heapOp (LS.setVal n v)
    k.exec n

/-- Loop of `ForEach`, `/repo/slist.go:135-137`. -/
def LL.forEachLoopC [GoZero T] (cb : σ → T → LProg T σ) : (fuel : Nat) → Option Nat → σ → GoM (LWorld T) σ
  | 0, _, _ => GoM.diverge
  | fuel + 1, node, t =>
    if node = none then pure t
    else do
      let n ← LWorld.heapOp (LS.load node)
      let t ← (cb t n.value).exec node
      let n ← LWorld.heapOp (LS.load node)
      LL.forEachLoopC cb fuel n.next t

/-- `ForEach` on list variable `i`, `/repo/slist.go:134-138`. -/
def LL.forEachC [GoZero T] (fuel i : Nat) (cb : σ → T → LProg T σ) (t : σ) : GoM (LWorld T) σ := do
  let w ← GoM.get
  LL.forEachLoopC cb fuel (w.vars i).head t

/-- Loop of `ForEachIf`, `/repo/slist.go:143-147`. -/
def LL.forEachIfLoopC [GoZero T] (cb : σ → T → LProg T (σ × Bool)) : (fuel : Nat) → Option Nat → σ → GoM (LWorld T) σ
  | 0, _, _ => GoM.diverge
  | fuel + 1, node, t =>
    if node = none then pure t
    else do
      let n ← LWorld.heapOp (LS.load node)
      let r ← (cb t n.value).exec node
      if r.2 = false then pure r.1
      else do
        let n ← LWorld.heapOp (LS.load node)
        LL.forEachIfLoopC cb fuel n.next r.1

/-- `ForEachIf` on list variable `i`, `/repo/slist.go:142-148`. -/
def LL.forEachIfC [GoZero T] (fuel i : Nat) (cb : σ → T → LProg T (σ × Bool)) (t : σ) : GoM (LWorld T) σ := do
  let w ← GoM.get
  LL.forEachIfLoopC cb fuel (w.vars i).head t

/-- Loop of `ForEachMutable`, `/repo/slist.go:152-154`. -/
def LL.forEachMutableLoopC [GoZero T] (cb : σ → LProg T σ) : (fuel : Nat) → Option Nat → σ → GoM (LWorld T) σ
  | 0, _, _ => GoM.diverge
  | fuel + 1, node, t =>
    if node = none then pure t
    else do
      let t ← (cb t).exec node
      let n ← LWorld.heapOp (LS.load node)
      LL.forEachMutableLoopC cb fuel n.next t

/-- `ForEachMutable` on list variable `i`, `/repo/slist.go:151-155`. -/
def LL.forEachMutableC [GoZero T] (fuel i : Nat) (cb : σ → LProg T σ) (t : σ) : GoM (LWorld T) σ := do
  let w ← GoM.get
  LL.forEachMutableLoopC cb fuel (w.vars i).head t

/-- Loop of `ForEachMutableIf`, `/repo/slist.go:160-164`. -/
def LL.forEachMutableIfLoopC [GoZero T] (cb : σ → LProg T (σ × Bool)) : (fuel : Nat) → Option Nat → σ → GoM (LWorld T) σ
  | 0, _, _ => GoM.diverge
  | fuel + 1, node, t =>
    if node = none then pure t
    else do
      let r ← (cb t).exec node
      if r.2 = false then pure r.1
      else do
        let n ← LWorld.heapOp (LS.load node)
        LL.forEachMutableIfLoopC cb fuel n.next r.1

/-- `ForEachMutableIf` on list variable `i`, `/repo/slist.go:159-165`. -/
def LL.forEachMutableIfC [GoZero T] (fuel i : Nat) (cb : σ → LProg T (σ × Bool)) (t : σ) : GoM (LWorld T) σ := do
  let w ← GoM.get
  LL.forEachMutableIfLoopC cb fuel (w.vars i).head t

end Stl4go
