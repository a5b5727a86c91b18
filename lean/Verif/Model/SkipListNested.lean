import Verif.Model.SkipListCallback
/-!
# Model of the `ForEach` methods of `/repo/skiplist.go` with callbacks that use any lists and run loops themselves

`Model/SkipListCallback.lean` has callbacks that use the list of the loop. Here there are any number of lists, each with its own compare function, iterators
and pointers to values; no list has nodes of another. A callback may use all of them and call the `ForEach` methods of any list again. The loop
variable `e` is a local variable of the method. The pointer that `ForEachMutable` and `ForEachMutableIf` pass to the callback is kept in a pointer variable
that the client chooses.
-/
namespace Stl4go
variable {K V α σ : Type}

/-- Client code over the lists. `each` is `ForEachIf` of list `i`, `eachPtr` is `ForEachMutableIf`, whose pointers are kept in `p`
(`/repo/skiplist.go:187-193`, `196-202`). -/
inductive SNProg (K V : Type) : Type → Type 1 where
  | ret {α : Type} (a : α) : SNProg K V α
  | panic {α : Type} : SNProg K V α
  | hang {α : Type} : SNProg K V α
  | call {α : Type} (i : Nat) (op : SCOp K V) (k : SCObs K V → SNProg K V α) : SNProg K V α
  | each {α ρ : Type} (i : Nat) (cb : ρ → K → V → SNProg K V (ρ × Bool)) (t : ρ) (k : ρ → SNProg K V α) : SNProg K V α
  | eachPtr {α ρ : Type} (p i : Nat) (cb : ρ → K → SNProg K V (ρ × Bool)) (t : ρ) (k : ρ → SNProg K V α) : SNProg K V α

/-- The lists (`/repo/skiplist.go:28-38`), with their iterators and pointers. -/
structure SNWorld (K V : Type) where
  lists : Nat → SCWorld K V

/-- Replace list `i` (`/repo/skiplist.go:175`, in the callback). -/
def SNWorld.set (w : SNWorld K V) (i : Nat) (x : SCWorld K V) : SNWorld K V := ⟨fun j => if j = i then x else w.lists j⟩

/-- A step that only reads list `i`, such as `e.key` in `/repo/skiplist.go:175`. -/
def SNWorld.read (i : Nat) (f : SL K V → Outcome α) : GoM (SNWorld K V) α := fun w =>
  match f (w.lists i).sl with
  | .ret a => .ok a w
  | .panic => .panic w
  | .diverge => .diverge

/-- Keep `&e.value` (`/repo/skiplist.go:198`) in variable `p`. -/
def SNWorld.keepPtr (p i e : Nat) : GoM (SNWorld K V) Unit := fun w => .ok () (w.set i ((w.lists i).point p (some e)))

/-- A method call of the client (`/repo/skiplist.go:175`, in the callback): a panic ends the client code. -/
def SNWorld.call (impl : Nat → SLImpl K) (i : Nat) (op : SCOp K V) : GoM (SNWorld K V) (SCObs K V) := fun w =>
  match (w.lists i).step (impl i) op with
  | (.of .panicked, x) => .panic (w.set i x)
  | (.of .hung, _) => .diverge
  | (o, x) => .ok o (w.set i x)

/-- Loop of `ForEach`, `/repo/skiplist.go:174-176`. -/
def SL.forEachLoopN (i : Nat) (cb : σ → K → V → GoM (SNWorld K V) σ) : (fuel : Nat) → Option Nat → σ → GoM (SNWorld K V) σ
  | 0, _, _ => GoM.diverge
  | _ + 1, none, t => pure t
  | fuel + 1, some e, t => do
    let n ← SNWorld.read i (fun sl => sl.deref e)
    let t ← cb t n.key n.value
    let e ← SNWorld.read i (fun sl => sl.nextAt (.node e) 0)
    SL.forEachLoopN i cb fuel e t

/-- `ForEach`, `/repo/skiplist.go:173-177`. -/
def SL.forEachN (fuel i : Nat) (cb : σ → K → V → GoM (SNWorld K V) σ) (t : σ) : GoM (SNWorld K V) σ := do
  let e ← SNWorld.read i (fun sl => sl.nextAt .head 0)
  SL.forEachLoopN i cb fuel e t

/-- Loop of `ForEachMutable`, `/repo/skiplist.go:181-183`. -/
def SL.forEachMutableLoopN (p i : Nat) (cb : σ → K → GoM (SNWorld K V) σ) : (fuel : Nat) → Option Nat → σ → GoM (SNWorld K V) σ
  | 0, _, _ => GoM.diverge
  | _ + 1, none, t => pure t
  | fuel + 1, some e, t => do
    let n ← SNWorld.read i (fun sl => sl.deref e)
    SNWorld.keepPtr p i e
    let t ← cb t n.key
    let e ← SNWorld.read i (fun sl => sl.nextAt (.node e) 0)
    SL.forEachMutableLoopN p i cb fuel e t

/-- `ForEachMutable`, `/repo/skiplist.go:180-184`. -/
def SL.forEachMutableN (fuel p i : Nat) (cb : σ → K → GoM (SNWorld K V) σ) (t : σ) : GoM (SNWorld K V) σ := do
  let e ← SNWorld.read i (fun sl => sl.nextAt .head 0)
  SL.forEachMutableLoopN p i cb fuel e t

/-- Loop of `ForEachIf`, `/repo/skiplist.go:188-192`. -/
def SL.forEachIfLoopN (i : Nat) (cb : σ → K → V → GoM (SNWorld K V) (σ × Bool)) : (fuel : Nat) → Option Nat → σ → GoM (SNWorld K V) σ
  | 0, _, _ => GoM.diverge
  | _ + 1, none, t => pure t
  | fuel + 1, some e, t => do
    let n ← SNWorld.read i (fun sl => sl.deref e)
    let r ← cb t n.key n.value
    if r.2 = false then pure r.1
    else do
      let e ← SNWorld.read i (fun sl => sl.nextAt (.node e) 0)
      SL.forEachIfLoopN i cb fuel e r.1

/-- `ForEachIf`, `/repo/skiplist.go:187-193`. -/
def SL.forEachIfN (fuel i : Nat) (cb : σ → K → V → GoM (SNWorld K V) (σ × Bool)) (t : σ) : GoM (SNWorld K V) σ := do
  let e ← SNWorld.read i (fun sl => sl.nextAt .head 0)
  SL.forEachIfLoopN i cb fuel e t

/-- Loop of `ForEachMutableIf`, `/repo/skiplist.go:197-201`. -/
def SL.forEachMutableIfLoopN (p i : Nat) (cb : σ → K → GoM (SNWorld K V) (σ × Bool)) : (fuel : Nat) → Option Nat → σ → GoM (SNWorld K V) σ
  | 0, _, _ => GoM.diverge
  | _ + 1, none, t => pure t
  | fuel + 1, some e, t => do
    let n ← SNWorld.read i (fun sl => sl.deref e)
    SNWorld.keepPtr p i e
    let r ← cb t n.key
    if r.2 = false then pure r.1
    else do
      let e ← SNWorld.read i (fun sl => sl.nextAt (.node e) 0)
      SL.forEachMutableIfLoopN p i cb fuel e r.1

/-- `ForEachMutableIf`, `/repo/skiplist.go:196-202`. -/
def SL.forEachMutableIfN (fuel p i : Nat) (cb : σ → K → GoM (SNWorld K V) (σ × Bool)) (t : σ) : GoM (SNWorld K V) σ := do
  let e ← SNWorld.read i (fun sl => sl.nextAt .head 0)
  SL.forEachMutableIfLoopN p i cb fuel e t

/-- Run client code (passed as `op`, `/repo/skiplist.go:187`); every loop takes at most `fuel` rounds. -/
def SNProg.exec (impl : Nat → SLImpl K) (fuel : Nat) : {α : Type} → SNProg K V α → GoM (SNWorld K V) α
  | _, .ret a => pure a
  | _, .panic => GoM.panic
  | _, .hang => GoM.diverge
  | _, .call i op k => do
    let o ← SNWorld.call impl i op
    (k o).exec impl fuel
  | _, .each i cb t k => do
    let t ← SL.forEachIfN fuel i (fun t k v => (cb t k v).exec impl fuel) t
    (k t).exec impl fuel
  | _, .eachPtr p i cb t k => do
    let t ← SL.forEachMutableIfN fuel p i (fun t k => (cb t k).exec impl fuel) t
    (k t).exec impl fuel

end Stl4go
