import Verif.Model.DList
/-!
# Specification of a deque, and of any number of deques used side by side

A deque is the list of its elements, front first.
-/
namespace Stl4go
variable {T : Type}

inductive DOp (T : Type) where
  | make (vs : List T)        -- `l = DListOf(vs...)`
  | pushFront (v : T)
  | pushBack (v : T)
  | popFront
  | popBack
  | tryPopFront
  | tryPopBack
  | front
  | back
  | len
  | isEmpty
  | clear
  | values                    -- iterate from front to back

inductive DObs (T : Type) where
  | unit
  | val (v : T)
  | try_ (v : T) (ok : Bool)
  | num (n : Int)
  | flag (b : Bool)
  | list (l : List T)
  | panicked
  | hung
deriving DecidableEq

/-- One operation on a sequence. -/
def Deque.step [GoZero T] (s : List T) : DOp T → DObs T × List T
  | .make vs => (.unit, vs)
  | .pushFront v => (.unit, v :: s)
  | .pushBack v => (.unit, s ++ [v])
  | .popFront => match s with
    | [] => (.panicked, [])
    | v :: s => (.val v, s)
  | .popBack => match s.getLast? with
    | none => (.panicked, [])
    | some v => (.val v, s.dropLast)
  | .tryPopFront => match s with
    | [] => (.try_ GoZero.zero false, [])
    | v :: s => (.try_ v true, s)
  | .tryPopBack => match s.getLast? with
    | none => (.try_ GoZero.zero false, [])
    | some v => (.try_ v true, s.dropLast)
  | .front => match s with
    | [] => (.panicked, [])
    | v :: s => (.val v, v :: s)
  | .back => match s.getLast? with
    | none => (.panicked, [])
    | some v => (.val v, s)
  | .len => (.num s.length, s)
  | .isEmpty => (.flag s.isEmpty, s)
  | .clear => (.unit, [])
  | .values => (.list s, s)

/-- Any number of sequences, named by numbers; a history says which one each operation is for. -/
def Deque.run [GoZero T] : (Nat → List T) → List (Nat × DOp T) → List (DObs T) × (Nat → List T)
  | w, [] => ([], w)
  | w, (i, op) :: ops =>
    let r := Deque.step (w i) op
    let rest := Deque.run (fun j => if j = i then r.2 else w j) ops
    (r.1 :: rest.1, rest.2)

/-! ## Running the model -/

/-- Turn a result into an observation; a panic is observed and leaves the state it leaves. -/
def DS.observe {α : Type} (f : α → DObs T) (m : GoM (DS T) α) (s : DS T) : DObs T × DS T :=
  match m s with
  | .ok a s' => (f a, s')
  | .panic s' => (.panicked, s')
  | .diverge => (.hung, s)

/-- One client operation on the model. -/
def DL.exec [GoZero T] (s : DS T) : DOp T → DObs T × DS T
  | .make vs => DS.observe (fun _ => .unit) (DL.dlistOf vs) s
  | .pushFront v => DS.observe (fun _ => .unit) (DL.pushFront v) s
  | .pushBack v => DS.observe (fun _ => .unit) (DL.pushBack v) s
  | .popFront => DS.observe .val DL.popFront s
  | .popBack => DS.observe .val DL.popBack s
  | .tryPopFront => DS.observe (fun r => .try_ r.1 r.2) DL.tryPopFront s
  | .tryPopBack => DS.observe (fun r => .try_ r.1 r.2) DL.tryPopBack s
  | .front => DS.observe .val DL.front s
  | .back => DS.observe .val DL.back s
  | .len => DS.observe .num DL.len s
  | .isEmpty => DS.observe .flag DL.isEmpty s
  | .clear => DS.observe (fun _ => .unit) DL.clear s
  | .values => DS.observe .list (do let it ← DL.iterate; it.collect (s.heap.length + 1)) s

/-- Several `DList` variables over one heap. -/
structure DWorld (T : Type) where
  heap : List (DNode T)
  vars : Nat → DL

/-- All variables hold the zero value `DList[T]{}`. -/
def DWorld.init : DWorld T := { heap := [], vars := fun _ => {} }

/-- A history on several lists. -/
def DWorld.run [GoZero T] : DWorld T → List (Nat × DOp T) → List (DObs T) × DWorld T
  | w, [] => ([], w)
  | w, (i, op) :: ops =>
    let r := DL.exec { heap := w.heap, l := w.vars i } op
    let rest := DWorld.run { heap := r.2.heap, vars := fun j => if j = i then r.2.l else w.vars j } ops
    (r.1 :: rest.1, rest.2)

end Stl4go
