import Verif.Model.Pool
/-! # Specification of `Pool`: objects change hands -/
namespace Stl4go

/-- What a program does: allocate an object itself, or use the pool. -/
inductive POp where
  | alloc
  | get
  | put (x : PtrT)

/-- What it sees. -/
inductive PObs where
  | ptr (x : PtrT)
  | unit
  | failed
deriving DecidableEq

/-- One step of the model. -/
def POp.call (rt : PoolRt) (p : PoolV) (newT : GoM PWorld PtrT) (op : POp) (w : PWorld) : PObs × PWorld :=
  match op with
  | .alloc => match newT w with
    | .ok x w' => (.ptr x, w')
    | .panic w' => (.failed, w')
    | .diverge => (.failed, w)
  | .get => match poolGet rt p w with
    | .ok x w' => (.ptr x, w')
    | .panic w' => (.failed, w')
    | .diverge => (.failed, w)
  | .put x => match poolPut rt x w with
    | .ok _ w' => (.unit, w')
    | .panic w' => (.failed, w')
    | .diverge => (.failed, w)

/-- The results of a history. -/
def PWorld.run (rt : PoolRt) (p : PoolV) (newT : GoM PWorld PtrT) : PWorld → List POp → List PObs
  | _, [] => []
  | w, op :: ops => (op.call rt p newT w).1 :: PWorld.run rt p newT (op.call rt p newT w).2 ops

/-- The state a history leads to. -/
def PWorld.after (rt : PoolRt) (p : PoolV) (newT : GoM PWorld PtrT) : PWorld → List POp → PWorld
  | w, [] => w
  | w, op :: ops => PWorld.after rt p newT (op.call rt p newT w).2 ops

/-- Nothing allocated yet. -/
def PWorld.empty : PWorld := { next := 0, kept := [], calls := 0 }

/-- The program puts back only nil or objects it holds. -/
def Lawful : (held : List PtrT) → List POp → List PObs → Prop
  | held, .put x :: ops, _ :: os => (x = none ∨ x ∈ held) ∧ Lawful (held.erase x) ops os
  | held, _ :: ops, .ptr x :: os => Lawful (x :: held) ops os
  | _, _, _ => True

/-- Each object handed out is not nil and not one the program holds. -/
def Exclusive : (held : List PtrT) → List POp → List PObs → Prop
  | _, [], os => os = []
  | held, .put x :: ops, .unit :: os => Exclusive (held.erase x) ops os
  | held, .get :: ops, .ptr x :: os => x ≠ none ∧ x ∉ held ∧ Exclusive (x :: held) ops os
  | held, .alloc :: ops, .ptr x :: os => x ≠ none ∧ x ∉ held ∧ Exclusive (x :: held) ops os
  | _, _, _ => False

/-- How often a history puts the object. -/
def putsOf (x : Nat) : List POp → Nat
  | [] => 0
  | .put y :: ops => (if y = some x then 1 else 0) + putsOf x ops
  | _ :: ops => putsOf x ops

/-- How often a history gets the object. -/
def getsOf (x : Nat) : List POp → List PObs → Nat
  | .get :: ops, o :: os => (if o = .ptr (some x) then 1 else 0) + getsOf x ops os
  | _ :: ops, _ :: os => getsOf x ops os
  | _, _ => 0

end Stl4go
