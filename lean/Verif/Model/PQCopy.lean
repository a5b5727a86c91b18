import Verif.Spec.HeapMem
/-!
# Copies of priority queues

`c := *q` copies the fields `heap` and `impl` of a `PriorityQueue` (`/repo/priority_queue.go:4-9`). The field `impl` of the copy still points to the
`pqOrdered` or `pqFunc` that `q` is part of (`/repo/priority_queue.go:12-16`, `34-39`).
-/
namespace Stl4go
variable {T : Type}

/-- `PriorityQueue`, `/repo/priority_queue.go:4-9`: the field `heap`; the field `impl` as its dynamic type and the number of the object it points to. -/
structure PQObj (T : Type) where
  heap : Sl
  impl : PQImplM T Unit
  home : Nat

/-- The objects of type `PriorityQueue`, numbered in the order they were made, and the client's variables: each points to an object, or to a zero
`PriorityQueue` (none), which no method changes. -/
structure PQCWorld (T : Type) where
  mem : Mem T
  obj : Nat → PQObj T
  next : Nat
  var : Nat → Option Nat

/-- Every variable points to a zero `PriorityQueue`. -/
def PQCWorld.init (m : Mem T) : PQCWorld T := { mem := m, obj := fun _ => ⟨Sl.empty, .nil, 0⟩, next := 0, var := fun _ => none }

/-- Operations of a client. -/
inductive PQCOp (T : Type) where
  | base (o : PQWOp T)
  | copy (j : Nat)      -- `c := *q_j; q_i = &c`

/-- The field of which object a method reads and writes: `Push` and `Pop` (`/repo/priority_queue.go:62-69`, `80-86`, `94-100`) use the one that `impl`
points to, the others (`42-59`) the receiver. -/
def PQCWorld.target (w : PQCWorld T) (x : Nat) : PQOp T → Nat
  | .push _ => (w.obj x).home
  | .pop => (w.obj x).home
  | _ => x

/-- A method called through a pointer to object `x`, `/repo/priority_queue.go:42-69`. -/
def PQCWorld.call [GoZero T] (grow : Nat → Nat → Nat) (w : PQCWorld T) (x : Nat) (o : PQOp T) : PQObs T × PQCWorld T :=
  let t := w.target x o
  let r := PQM.exec grow (w.obj x).impl { mem := w.mem, st := (), heap := (w.obj t).heap } o
  (r.1, { w with mem := r.2.mem, obj := fun y => if y = t then { w.obj y with heap := r.2.heap } else w.obj y })

/-- A constructor, `/repo/priority_queue.go:12-16`, `29-31`, `34-39`: `impl` points to the new object. -/
def PQCWorld.make [GoZero T] [GoOrd T] (grow : Nat → Nat → Nat) (w : PQCWorld T) (i : Nat) (o : PQWOp T) : PQObs T × PQCWorld T :=
  let r := o.exec grow .nil { mem := w.mem, st := (), heap := Sl.empty }
  (r.1, { mem := r.2.mem, obj := fun y => if y = w.next then ⟨r.2.heap, o.implAfter .nil, w.next⟩ else w.obj y, next := w.next + 1,
          var := fun j => if j = i then some w.next else w.var j })

/-- One client operation; for a zero `PriorityQueue` the field `heap` is nil and `impl` is nil. -/
def PQCWorld.step [GoZero T] [GoOrd T] (grow : Nat → Nat → Nat) (w : PQCWorld T) (i : Nat) : PQCOp T → PQObs T × PQCWorld T
  | .base (.op o) =>
    match w.var i with
    | none => ((PQM.exec grow .nil { mem := w.mem, st := (), heap := Sl.empty } o).1, w)
    | some x => w.call grow x o
  | .base o => w.make grow i o
  | .copy j =>
    match w.var j with
    | none => (.unit, { w with var := fun l => if l = i then none else w.var l })
    | some x => (.unit, { w with obj := fun y => if y = w.next then w.obj x else w.obj y, next := w.next + 1,
                                 var := fun l => if l = i then some w.next else w.var l })

/-- A history. -/
def PQCWorld.run [GoZero T] [GoOrd T] (grow : Nat → Nat → Nat) : PQCWorld T → List (Nat × PQCOp T) → List (PQObs T) × PQCWorld T
  | w, [] => ([], w)
  | w, (i, op) :: ops => ((w.step grow i op).1 :: ((w.step grow i op).2.run grow ops).1, ((w.step grow i op).2.run grow ops).2)

end Stl4go
