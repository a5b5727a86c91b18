import Verif.Model.DListQueue
import Verif.Spec.Deque
/-! # Specification of a FIFO queue -/
namespace Stl4go
variable {T : Type}

inductive QOp (T : Type) where
  | new                       -- `q = *NewDListQueue()`
  | pushFront (v : T)
  | pushBack (v : T)
  | popFront
  | popBack
  | tryPopFront
  | tryPopBack
  | front
  | back
  | len
  | isEmpty
  | clear

/-- The deque operation each queue operation stands for. -/
def QOp.toDeque : QOp T → DOp T
  | .new => .make []
  | .pushFront v => .pushFront v
  | .pushBack v => .pushBack v
  | .popFront => .popFront
  | .popBack => .popBack
  | .tryPopFront => .tryPopFront
  | .tryPopBack => .tryPopBack
  | .front => .front
  | .back => .back
  | .len => .len
  | .isEmpty => .isEmpty
  | .clear => .clear

/-- Operations of a plain queue: in at the back, out at the front, and reading. -/
def QOp.Plain : QOp T → Prop
  | .pushBack _ | .popFront | .tryPopFront | .front | .back | .len | .isEmpty => True
  | _ => False

/-- What the client put into queue `i`, in order. -/
def pushedTo (i : Nat) : List (Nat × QOp T) → List T
  | [] => []
  | (j, .pushBack v) :: h => if j = i then v :: pushedTo i h else pushedTo i h
  | _ :: h => pushedTo i h

/-- What the client got out of queue `i`, in order: the results of the successful pops. -/
def takenFrom (i : Nat) : List (Nat × QOp T) → List (DObs T) → List T
  | (j, .popFront) :: h, .val v :: o => if j = i then v :: takenFrom i h o else takenFrom i h o
  | (j, .tryPopFront) :: h, .try_ v true :: o => if j = i then v :: takenFrom i h o else takenFrom i h o
  | _ :: h, _ :: o => takenFrom i h o
  | _, _ => []

/-! ## Running the model -/

/-- One client operation on a queue. -/
def DQ.exec [GoZero T] (s : DS T) : QOp T → DObs T × DS T
  | .new => DS.observe (fun _ => .unit) DQ.new s
  | .pushFront v => DS.observe (fun _ => .unit) (DQ.pushFront v) s
  | .pushBack v => DS.observe (fun _ => .unit) (DQ.pushBack v) s
  | .popFront => DS.observe .val DQ.popFront s
  | .popBack => DS.observe .val DQ.popBack s
  | .tryPopFront => DS.observe (fun r => .try_ r.1 r.2) DQ.tryPopFront s
  | .tryPopBack => DS.observe (fun r => .try_ r.1 r.2) DQ.tryPopBack s
  | .front => DS.observe .val DQ.front s
  | .back => DS.observe .val DQ.back s
  | .len => DS.observe .num DQ.len s
  | .isEmpty => DS.observe .flag DQ.isEmpty s
  | .clear => DS.observe (fun _ => .unit) DQ.clear s

/-- A history on several queues over one heap. -/
def DWorld.runQ [GoZero T] : DWorld T → List (Nat × QOp T) → List (DObs T) × DWorld T
  | w, [] => ([], w)
  | w, (i, op) :: ops =>
    let r := DQ.exec { heap := w.heap, l := w.vars i } op
    let rest := DWorld.runQ { heap := r.2.heap, vars := fun j => if j = i then r.2.l else w.vars j } ops
    (r.1 :: rest.1, rest.2)

end Stl4go
