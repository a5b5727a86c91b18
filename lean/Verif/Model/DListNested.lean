import Verif.Spec.DListCursor
/-!
# Model of the `ForEach` methods of `/repo/dlist.go` with callbacks that use any lists and run loops themselves

`Model/DListCallback.lean` has callbacks that use the list of the loop. Here a callback may use all list variables and iterators of the client
program, and call the `ForEach` methods of any list again. The loop variable `n` is a local variable of the method. The pointer that
`ForEachMutable` and `ForEachMutableIf` pass to the callback is kept in an iterator variable that the client chooses; it refers to the same
field as that iterator's `Pointer()`.
-/
namespace Stl4go
variable {T σ : Type}

/-- Client code over the list variables. `Op` are the calls it can make; `each` is `ForEachIf` of list `i`, `eachPtr` is `ForEachMutableIf`, whose
pointers are kept in `c` (`/repo/dlist.go:175-184`, `198-207`; `/repo/slist.go:142-148`, `159-165`). -/
inductive EProg (Op T : Type) : Type → Type 1 where
  | ret {α : Type} (a : α) : EProg Op T α
  | panic {α : Type} : EProg Op T α
  | hang {α : Type} : EProg Op T α
  | call {α : Type} (op : Op) (k : DObs T → EProg Op T α) : EProg Op T α
  | each {α ρ : Type} (i : Nat) (cb : ρ → T → EProg Op T (ρ × Bool)) (t : ρ) (k : ρ → EProg Op T α) : EProg Op T α
  | eachPtr {α ρ : Type} (c i : Nat) (cb : ρ → EProg Op T (ρ × Bool)) (t : ρ) (k : ρ → EProg Op T α) : EProg Op T α

/-- Load a node (`/repo/dlist.go:169`); nil panics. -/
def CWorld.load (p : Option Nat) : GoM (CWorld T) (DNode T) := fun w =>
  match DS.load p (w.on 0) with
  | .ok n _ => .ok n w
  | _ => .panic w

/-- Keep `&n.value` (`/repo/dlist.go:203`) in variable `c`. -/
def CWorld.keepPtr (c i : Nat) (n : Option Nat) : GoM (CWorld T) Unit := fun w =>
  .ok () { w with curs := fun x => if x = c then (i, ⟨n⟩) else w.curs x }

/-- Loop of `ForEach`, `/repo/dlist.go:168-170`. -/
def DL.forEachLoopW (i : Nat) (cb : σ → T → GoM (CWorld T) σ) : (fuel : Nat) → Option Nat → σ → GoM (CWorld T) σ
  | 0, _, _ => GoM.diverge
  | fuel + 1, n, t => do
    let w ← GoM.get
    if n ≠ (w.vars i).head then
      let nd ← CWorld.load n
      let t ← cb t nd.value
      let nd ← CWorld.load n
      DL.forEachLoopW i cb fuel nd.next t
    else return t

/-- `ForEach`, `/repo/dlist.go:164-171`. -/
def DL.forEachW (fuel i : Nat) (cb : σ → T → GoM (CWorld T) σ) (t : σ) : GoM (CWorld T) σ := do
  let w ← GoM.get
  if (w.vars i).length = 0 then return t
  else
    let h ← CWorld.load (w.vars i).head
    DL.forEachLoopW i cb fuel h.next t

/-- Loop of `ForEachIf`, `/repo/dlist.go:179-183`. -/
def DL.forEachIfLoopW (i : Nat) (cb : σ → T → GoM (CWorld T) (σ × Bool)) : (fuel : Nat) → Option Nat → σ → GoM (CWorld T) σ
  | 0, _, _ => GoM.diverge
  | fuel + 1, n, t => do
    let w ← GoM.get
    if n ≠ (w.vars i).head then
      let nd ← CWorld.load n
      let r ← cb t nd.value
      if r.2 = false then return r.1
      else
        let nd ← CWorld.load n
        DL.forEachIfLoopW i cb fuel nd.next r.1
    else return t

/-- `ForEachIf`, `/repo/dlist.go:175-184`. -/
def DL.forEachIfW (fuel i : Nat) (cb : σ → T → GoM (CWorld T) (σ × Bool)) (t : σ) : GoM (CWorld T) σ := do
  let w ← GoM.get
  if (w.vars i).length = 0 then return t
  else
    let h ← CWorld.load (w.vars i).head
    DL.forEachIfLoopW i cb fuel h.next t

/-- Loop of `ForEachMutable`, `/repo/dlist.go:191-193`; taking the address of a field of nil panics. -/
def DL.forEachMutableLoopW (c i : Nat) (cb : σ → GoM (CWorld T) σ) : (fuel : Nat) → Option Nat → σ → GoM (CWorld T) σ
  | 0, _, _ => GoM.diverge
  | fuel + 1, n, t => do
    let w ← GoM.get
    if n ≠ (w.vars i).head then
      let _ ← CWorld.load n
      CWorld.keepPtr c i n
      let t ← cb t
      let nd ← CWorld.load n
      DL.forEachMutableLoopW c i cb fuel nd.next t
    else return t

/-- `ForEachMutable`, `/repo/dlist.go:187-194`. -/
def DL.forEachMutableW (fuel c i : Nat) (cb : σ → GoM (CWorld T) σ) (t : σ) : GoM (CWorld T) σ := do
  let w ← GoM.get
  if (w.vars i).length = 0 then return t
  else
    let h ← CWorld.load (w.vars i).head
    DL.forEachMutableLoopW c i cb fuel h.next t

/-- Loop of `ForEachMutableIf`, `/repo/dlist.go:202-206`. -/
def DL.forEachMutableIfLoopW (c i : Nat) (cb : σ → GoM (CWorld T) (σ × Bool)) : (fuel : Nat) → Option Nat → σ → GoM (CWorld T) σ
  | 0, _, _ => GoM.diverge
  | fuel + 1, n, t => do
    let w ← GoM.get
    if n ≠ (w.vars i).head then
      let _ ← CWorld.load n
      CWorld.keepPtr c i n
      let r ← cb t
      if r.2 = false then return r.1
      else
        let nd ← CWorld.load n
        DL.forEachMutableIfLoopW c i cb fuel nd.next r.1
    else return t

/-- `ForEachMutableIf`, `/repo/dlist.go:198-207`. -/
def DL.forEachMutableIfW (fuel c i : Nat) (cb : σ → GoM (CWorld T) (σ × Bool)) (t : σ) : GoM (CWorld T) σ := do
  let w ← GoM.get
  if (w.vars i).length = 0 then return t
  else
    let h ← CWorld.load (w.vars i).head
    DL.forEachMutableIfLoopW c i cb fuel h.next t

/-- A method call of the client (`/repo/dlist.go:169`, in the callback): a panic ends the client code. -/
def CWorld.call [GoZero T] (op : COp T) : GoM (CWorld T) (DObs T) := fun w =>
  match w.step op with
  | (.panicked, w') => .panic w'
  | (.hung, _) => .diverge
  | (o, w') => .ok o w'

/-- Run client code (passed as `cb`, `/repo/dlist.go:175`); every loop takes at most `fuel` rounds. -/
def EProg.exec [GoZero T] (fuel : Nat) : {α : Type} → EProg (COp T) T α → GoM (CWorld T) α
  | _, .ret a => pure a
  | _, .panic => GoM.panic
  | _, .hang => GoM.diverge
  | _, .call op k => do
    let o ← CWorld.call op
    (k o).exec fuel
  | _, .each i cb t k => do
    let t ← DL.forEachIfW fuel i (fun t v => (cb t v).exec fuel) t
    (k t).exec fuel
  | _, .eachPtr c i cb t k => do
    let t ← DL.forEachMutableIfW fuel c i (fun t => (cb t).exec fuel) t
    (k t).exec fuel

end Stl4go
