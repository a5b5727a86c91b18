import Verif.Spec.SkipListCursor
/-!
# Model of the `ForEach` methods of `/repo/skiplist.go` with callbacks that use the list

The callback of a `ForEach` method is client code. Here it is a program that may call any method of the list it is called from, use any
number of iterators and pointers to values, keep the pointer it is given, read and write through it, panic, or never return. The loops take an
explicit fuel, since inserting in the callback can make them endless.
-/
namespace Stl4go
variable {K V α β σ : Type}

/-- Client code run by a callback. `load`, `store` and `save` are `*p`, `*p = v` and `x = p` for the pointer `p` that `ForEachMutable` hands
out (`/repo/skiplist.go:182`). -/
inductive SProg (K V α : Type) where
  | ret (a : α)
  | panic
  | hang
  | call (op : SCOp K V) (k : SCObs K V → SProg K V α)
  | load (k : V → SProg K V α)
  | store (v : V) (k : SProg K V α)
  | save (x : Nat) (k : SProg K V α)

/-- Continue with what the program returns (client code that is passed as `op`, `/repo/skiplist.go:173`). -/
def SProg.bind : SProg K V α → (α → SProg K V β) → SProg K V β
  | .ret a, f => f a
  | .panic, _ => .panic
  | .hang, _ => .hang
  | .call op k, f => .call op (fun o => (k o).bind f)
  | .load k, f => .load (fun v => (k v).bind f)
  | .store v k, f => .store v (k.bind f)
  | .save x k, f => .save x (k.bind f)

/-- A step that only reads the list, such as `e.key` in `/repo/skiplist.go:175`. -/
def SCWorld.read (f : SL K V → Outcome α) : GoM (SCWorld K V) α := fun w =>
  match f w.sl with
  | .ret a => .ok a w
  | .panic => .panic w
  | .diverge => .diverge

/-- Run client code in the callback for node `e` (`/repo/skiplist.go:175`): method calls work on the list, the iterators and the pointers, a
panic of one ends the callback. -/
def SProg.exec (impl : SLImpl K) (e : Nat) : SProg K V α → GoM (SCWorld K V) α
  | .ret a => pure a
  | .panic => GoM.panic
  | .hang => GoM.diverge
  | .call op k => fun w =>
    let r := w.step impl op
    match r.1 with
    | .of .panicked => .panic r.2
    | .of .hung => .diverge
    | o => (k o).exec impl e r.2
  | .load k => do
    let v ← SCWorld.read (fun sl => sl.readPtr e)
    (k v).exec impl e
  | .store v k => do
    let sl ← SCWorld.read (fun sl => sl.setValue e v)
    GoM.modify (fun w => { w with sl := sl })
    k.exec impl e
  | .save x k => do
    GoM.modify (fun w => w.point x (some e))
    k.exec impl e

/-- Loop of `ForEach`, `/repo/skiplist.go:174-176`. -/
def SL.forEachLoopC (impl : SLImpl K) (cb : σ → K → V → SProg K V σ) : (fuel : Nat) → Option Nat → σ → GoM (SCWorld K V) σ
  | 0, _, _ => GoM.diverge
  | _ + 1, none, t => pure t
  | fuel + 1, some e, t => do
    let n ← SCWorld.read (fun sl => sl.deref e)
    let t ← (cb t n.key n.value).exec impl e
    let e ← SCWorld.read (fun sl => sl.nextAt (.node e) 0)
    SL.forEachLoopC impl cb fuel e t

/-- `ForEach`, `/repo/skiplist.go:173-177`. -/
def SL.forEachC (impl : SLImpl K) (fuel : Nat) (cb : σ → K → V → SProg K V σ) (t : σ) : GoM (SCWorld K V) σ := do
  let e ← SCWorld.read (fun sl => sl.nextAt .head 0)
  SL.forEachLoopC impl cb fuel e t

/-- Loop of `ForEachMutable`, `/repo/skiplist.go:181-183`. -/
def SL.forEachMutableLoopC (impl : SLImpl K) (cb : σ → K → SProg K V σ) : (fuel : Nat) → Option Nat → σ → GoM (SCWorld K V) σ
  | 0, _, _ => GoM.diverge
  | _ + 1, none, t => pure t
  | fuel + 1, some e, t => do
    let n ← SCWorld.read (fun sl => sl.deref e)
    let t ← (cb t n.key).exec impl e
    let e ← SCWorld.read (fun sl => sl.nextAt (.node e) 0)
    SL.forEachMutableLoopC impl cb fuel e t

/-- `ForEachMutable`, `/repo/skiplist.go:180-184`. -/
def SL.forEachMutableC (impl : SLImpl K) (fuel : Nat) (cb : σ → K → SProg K V σ) (t : σ) : GoM (SCWorld K V) σ := do
  let e ← SCWorld.read (fun sl => sl.nextAt .head 0)
  SL.forEachMutableLoopC impl cb fuel e t

/-- Loop of `ForEachIf`, `/repo/skiplist.go:188-192`. -/
def SL.forEachIfLoopC (impl : SLImpl K) (cb : σ → K → V → SProg K V (σ × Bool)) :
    (fuel : Nat) → Option Nat → σ → GoM (SCWorld K V) σ
  | 0, _, _ => GoM.diverge
  | _ + 1, none, t => pure t
  | fuel + 1, some e, t => do
    let n ← SCWorld.read (fun sl => sl.deref e)
    let r ← (cb t n.key n.value).exec impl e
    if r.2 = false then pure r.1
    else do
      let e ← SCWorld.read (fun sl => sl.nextAt (.node e) 0)
      SL.forEachIfLoopC impl cb fuel e r.1

/-- `ForEachIf`, `/repo/skiplist.go:187-193`. -/
def SL.forEachIfC (impl : SLImpl K) (fuel : Nat) (cb : σ → K → V → SProg K V (σ × Bool)) (t : σ) : GoM (SCWorld K V) σ := do
  let e ← SCWorld.read (fun sl => sl.nextAt .head 0)
  SL.forEachIfLoopC impl cb fuel e t

/-- Loop of `ForEachMutableIf`, `/repo/skiplist.go:197-201`. -/
def SL.forEachMutableIfLoopC (impl : SLImpl K) (cb : σ → K → SProg K V (σ × Bool)) :
    (fuel : Nat) → Option Nat → σ → GoM (SCWorld K V) σ
  | 0, _, _ => GoM.diverge
  | _ + 1, none, t => pure t
  | fuel + 1, some e, t => do
    let n ← SCWorld.read (fun sl => sl.deref e)
    let r ← (cb t n.key).exec impl e
    if r.2 = false then pure r.1
    else do
      let e ← SCWorld.read (fun sl => sl.nextAt (.node e) 0)
      SL.forEachMutableIfLoopC impl cb fuel e r.1

/-- `ForEachMutableIf`, `/repo/skiplist.go:196-202`. -/
def SL.forEachMutableIfC (impl : SLImpl K) (fuel : Nat) (cb : σ → K → SProg K V (σ × Bool)) (t : σ) : GoM (SCWorld K V) σ := do
  let e ← SCWorld.read (fun sl => sl.nextAt .head 0)
  SL.forEachMutableIfLoopC impl cb fuel e t

end Stl4go
