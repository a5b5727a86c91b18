import Verif.Spec.Deque
/-!
# Model of the `ForEach` methods of `/repo/dlist.go` with callbacks that use the list

The callback of a `ForEach` method is client code. Here it is a program that may call any method of the list it is called from, use the
answers, read and write the element it was given a pointer to, panic, or never return. The loops take an explicit fuel, since pushing in
the callback can make them endless.
-/
namespace Stl4go
variable {T α β σ : Type}

/-- Client code run by a callback. `load` and `store` go through the pointer that `ForEachMutable` hands out (`/repo/dlist.go:191-193`). -/
inductive DProg (T α : Type) where
  | ret (a : α)
  | panic
  | hang
  | call (op : DOp T) (k : DObs T → DProg T α)
  | load (k : T → DProg T α)
  | store (v : T) (k : DProg T α)

/-- Continue with what the program returns (client code that is passed as `cb`, `/repo/dlist.go:164`). -/
def DProg.bind : DProg T α → (α → DProg T β) → DProg T β
  | .ret a, f => f a
  | .panic, _ => .panic
  | .hang, _ => .hang
  | .call op k, f => .call op (fun o => (k o).bind f)
  | .load k, f => .load (fun v => (k v).bind f)
  | .store v k, f => .store v (k.bind f)

/-- Run client code in the callback for node `n` (`/repo/dlist.go:169`): method calls work on the list, a panic of one ends the callback. -/
def DProg.exec [GoZero T] (n : Option Nat) : DProg T α → GoM (DS T) α
  | .ret a => pure a
  | .panic => GoM.panic
  | .hang => GoM.diverge
  | .call op k => fun s =>
    match DL.exec s op with
    | (.panicked, s') => .panic s'
    | (.hung, _) => .diverge
    | (o, s') => (k o).exec n s'
  | .load k => do
    let nd ← DS.load n
    (k nd.value).exec n
  | .store v k => do
    DS.setVal n v
    k.exec n

/-- Loop of `ForEach`, `/repo/dlist.go:168-170`. -/
def DL.forEachLoopC [GoZero T] (cb : σ → T → DProg T σ) : (fuel : Nat) → Option Nat → σ → GoM (DS T) σ
  | 0, _, _ => GoM.diverge
  | fuel + 1, n, t => do
    let s ← GoM.get
    if n ≠ s.l.head then
      let nd ← DS.load n
      let t ← (cb t nd.value).exec n
      let nd ← DS.load n
      DL.forEachLoopC cb fuel nd.next t
    else return t

/-- `ForEach`, `/repo/dlist.go:164-171`. -/
def DL.forEachC [GoZero T] (fuel : Nat) (cb : σ → T → DProg T σ) (t : σ) : GoM (DS T) σ := do
  if ← DL.isEmpty then return t
  else
    let s ← GoM.get
    let h ← DS.load s.l.head
    DL.forEachLoopC cb fuel h.next t

/-- Loop of `ForEachIf`, `/repo/dlist.go:179-183`. -/
def DL.forEachIfLoopC [GoZero T] (cb : σ → T → DProg T (σ × Bool)) : (fuel : Nat) → Option Nat → σ → GoM (DS T) σ
  | 0, _, _ => GoM.diverge
  | fuel + 1, n, t => do
    let s ← GoM.get
    if n ≠ s.l.head then
      let nd ← DS.load n
      let r ← (cb t nd.value).exec n
      if r.2 = false then return r.1
      else
        let nd ← DS.load n
        DL.forEachIfLoopC cb fuel nd.next r.1
    else return t

/-- `ForEachIf`, `/repo/dlist.go:175-184`. -/
def DL.forEachIfC [GoZero T] (fuel : Nat) (cb : σ → T → DProg T (σ × Bool)) (t : σ) : GoM (DS T) σ := do
  if ← DL.isEmpty then return t
  else
    let s ← GoM.get
    let h ← DS.load s.l.head
    DL.forEachIfLoopC cb fuel h.next t

/-- Loop of `ForEachMutable`, `/repo/dlist.go:191-193`; taking the address of a field of nil panics. -/
def DL.forEachMutableLoopC [GoZero T] (cb : σ → DProg T σ) : (fuel : Nat) → Option Nat → σ → GoM (DS T) σ
  | 0, _, _ => GoM.diverge
  | fuel + 1, n, t => do
    let s ← GoM.get
    if n ≠ s.l.head then
      let _ ← DS.load n
      let t ← (cb t).exec n
      let nd ← DS.load n
      DL.forEachMutableLoopC cb fuel nd.next t
    else return t

/-- `ForEachMutable`, `/repo/dlist.go:187-194`. -/
def DL.forEachMutableC [GoZero T] (fuel : Nat) (cb : σ → DProg T σ) (t : σ) : GoM (DS T) σ := do
  if ← DL.isEmpty then return t
  else
    let s ← GoM.get
    let h ← DS.load s.l.head
    DL.forEachMutableLoopC cb fuel h.next t

/-- Loop of `ForEachMutableIf`, `/repo/dlist.go:202-206`. -/
def DL.forEachMutableIfLoopC [GoZero T] (cb : σ → DProg T (σ × Bool)) : (fuel : Nat) → Option Nat → σ → GoM (DS T) σ
  | 0, _, _ => GoM.diverge
  | fuel + 1, n, t => do
    let s ← GoM.get
    if n ≠ s.l.head then
      let _ ← DS.load n
      let r ← (cb t).exec n
      if r.2 = false then return r.1
      else
        let nd ← DS.load n
        DL.forEachMutableIfLoopC cb fuel nd.next r.1
    else return t

/-- `ForEachMutableIf`, `/repo/dlist.go:198-207`. -/
def DL.forEachMutableIfC [GoZero T] (fuel : Nat) (cb : σ → DProg T (σ × Bool)) (t : σ) : GoM (DS T) σ := do
  if ← DL.isEmpty then return t
  else
    let s ← GoM.get
    let h ← DS.load s.l.head
    DL.forEachMutableIfLoopC cb fuel h.next t

end Stl4go
